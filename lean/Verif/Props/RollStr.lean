import Verif.Model.RollStr
import Verif.Spec.Text
import Verif.Proofs.World
import Mathlib.Tactic.IntervalCases

/-!
# C34: dice notation
-/

namespace PythonDice
open Spec

theorem digitVal_digitChar {d : ℕ} (h : d < 10) : digitVal (digitChar d) = some d := by
  interval_cases d <;> decide

theorem digitChar_ne {d : ℕ} (h : d < 10) : digitChar d ≠ '_' ∧ digitChar d ≠ '-' ∧ digitChar d ≠ '+' ∧ digitChar d ≠ 'd' ∧
    isSpace (digitChar d) = false := by
  interval_cases d <;> decide

theorem parseDigits_text (ds : List ℕ) (h : ∀ d ∈ ds, d < 10) (acc : ℕ) :
    parseDigits acc (ds.map digitChar) = some (ds.foldl (fun a d => 10 * a + d) acc) := by
  induction ds generalizing acc with
  | nil => rfl
  | cons d ds ih =>
    have hd := h d List.mem_cons_self
    rw [List.map_cons, parseDigits, digitVal_digitChar hd]
    · exact ih (fun x hx => h x (List.mem_cons_of_mem _ hx)) _
    · intro c cs hc
      exact absurd hc (digitChar_ne hd).1

theorem _root_.Spec.NatText.parse {n : ℕ} {cs : List Char} (h : NatText n cs) : parseNat cs = some n := by
  obtain ⟨ds, rfl, h1, h2, _, h4⟩ := h.ex
  cases ds with
  | nil => exact absurd rfl h2
  | cons d ds =>
    rw [List.map_cons, parseNat, digitVal_digitChar (h1 d List.mem_cons_self)]
    change parseDigits d (ds.map digitChar) = _
    rw [parseDigits_text ds (fun x hx => h1 x (List.mem_cons_of_mem _ hx))]
    rw [← h4, List.foldl_cons]
    simp

theorem _root_.Spec.NatText.mem {n : ℕ} {cs : List Char} (h : NatText n cs) : ∀ c ∈ cs, c ≠ '_' ∧ c ≠ '-' ∧ c ≠ '+' ∧ c ≠ 'd' ∧ isSpace c = false := by
  obtain ⟨ds, rfl, h1, _⟩ := h.ex
  intro c hc
  obtain ⟨d, hd, rfl⟩ := List.mem_map.1 hc
  exact digitChar_ne (h1 d hd)

theorem _root_.Spec.NatText.ne_nil {n : ℕ} {cs : List Char} (h : NatText n cs) : cs ≠ [] := by
  obtain ⟨ds, rfl, _, h2, _⟩ := h.ex
  simpa using h2

theorem _root_.Spec.IntText.mem {n : ℤ} {cs : List Char} (h : IntText n cs) : ∀ c ∈ cs, c ≠ 'd' ∧ isSpace c = false := by
  unfold IntText at h
  split at h
  · obtain ⟨ds, rfl, hd⟩ := h
    intro c hc
    rcases List.mem_cons.1 hc with rfl | hc
    · decide
    · exact ⟨(hd.mem c hc).2.2.2.1, (hd.mem c hc).2.2.2.2⟩
  · intro c hc
    exact ⟨(h.mem c hc).2.2.2.1, (h.mem c hc).2.2.2.2⟩

theorem _root_.Spec.IntText.ne_nil {n : ℤ} {cs : List Char} (h : IntText n cs) : cs ≠ [] := by
  unfold IntText at h
  split at h
  · obtain ⟨ds, rfl, hd⟩ := h
    simp
  · exact NatText.ne_nil h

theorem dropWhile_none {p : Char → Bool} {l : List Char} (h : ∀ c ∈ l, p c = false) : l.dropWhile p = l := by
  cases l with
  | nil => rfl
  | cons c l => rw [List.dropWhile_cons, h c List.mem_cons_self]; rfl

theorem strip_of {l : List Char} (h : ∀ c ∈ l, isSpace c = false) : strip l = l := by
  unfold strip
  rw [dropWhile_none h, dropWhile_none (fun c hc => h c (List.mem_reverse.1 hc)), List.reverse_reverse]

theorem _root_.Spec.IntText.parse {n : ℤ} {cs : List Char} (h : IntText n cs) : pyInt cs = .ok n := by
  unfold pyInt
  rw [strip_of fun c hc => (h.mem c hc).2]
  unfold IntText at h
  split at h
  · rename_i hn
    obtain ⟨ds, rfl, hd⟩ := h
    rw [parseSigned, hd.parse]
    change Except.ok (-(n.natAbs : ℤ)) = _
    congr 1
    omega
  · rename_i hn
    have hs : parseSigned cs = (parseNat cs).map fun n : ℕ => (n : ℤ) := by
      have h1 := h.mem
      have h0 := h.ne_nil
      cases cs with
      | nil => exact absurd rfl h0
      | cons c cs =>
        obtain ⟨_, c1, c2, _⟩ := h1 c List.mem_cons_self
        rw [parseSigned]
        · intro _ e; cases e; exact c1 rfl
        · intro _ e; cases e; exact c2 rfl
    rw [hs, h.parse]
    change Except.ok ((n.natAbs : ℤ)) = _
    congr 1
    omega

theorem splitChar_none {c : Char} {a : List Char} (h : c ∉ a) : splitChar c a = [a] := by
  induction a with
  | nil => rfl
  | cons x a ih =>
    rw [List.mem_cons, not_or] at h
    rw [splitChar, if_neg (Ne.symm h.1), ih h.2]

theorem splitChar_append {c : Char} {a b : List Char} (h : c ∉ a) : splitChar c (a ++ c :: b) = a :: splitChar c b := by
  induction a with
  | nil => rw [List.nil_append, splitChar, if_pos rfl]
  | cons x a ih =>
    rw [List.mem_cons, not_or] at h
    rw [List.cons_append, splitChar, if_neg (Ne.symm h.1), ih h.2]

theorem splitChar_length (c : Char) (s : List Char) : (splitChar c s).length = s.count c + 1 := by
  induction s with
  | nil => rfl
  | cons x s ih =>
    rw [splitChar]
    by_cases h : x = c
    · rw [if_pos h, List.length_cons, ih, h, List.count_cons_self]
    · rw [if_neg h, List.count_cons_of_ne h]
      cases hs : splitChar c s with
      | nil => rw [hs] at ih; simp at ih
      | cons l ls => rw [hs] at ih; simpa using ih

theorem rollStr_ok {s : List Char} {n d : ℤ} (h : parseFromStr s = .ok (n, d)) : rollStr s = roll (.num n) (.num d) := by
  funext w
  unfold rollStr
  rw [M.bind_ok (show M.ofSettings (fun _ => parseFromStr s) w = (.ok (n, d), w) by
    rw [show M.ofSettings (fun _ => parseFromStr s) w = (parseFromStr s, w) from rfl, h])]

/-- C34. `roll('NdM')` is `roll(N, M)`, for all integers in decimal notation. -/
theorem C34_ndm (n m : ℤ) (a b : List Char) (ha : IntText n a) (hb : IntText m b) :
    rollStr (a ++ 'd' :: b) = roll (.num n) (.num m) := by
  apply rollStr_ok
  unfold parseFromStr
  rw [splitChar_append fun h => (ha.mem _ h).1 rfl, splitChar_none fun h => (hb.mem _ h).1 rfl]
  change (parseCount a >>= fun n => pyInt b >>= fun d => pure (n, d)) = _
  rw [parseCount, if_neg ha.ne_nil, ha.parse, hb.parse]
  rfl

/-- C34. `roll('dM')` is `roll(1, M)`. -/
theorem C34_dm (m : ℤ) (b : List Char) (hb : IntText m b) : rollStr ('d' :: b) = roll (.num 1) (.num m) := by
  apply rollStr_ok
  unfold parseFromStr
  rw [show 'd' :: b = [] ++ 'd' :: b from rfl, splitChar_append (by simp), splitChar_none fun h => (hb.mem _ h).1 rfl]
  change (parseCount [] >>= fun n => pyInt b >>= fun d => pure (n, d)) = _
  rw [parseCount, if_pos rfl, hb.parse]
  rfl

/-- C34. A string without exactly one 'd' raises ValueError and changes nothing. -/
theorem C34_raises (s : List Char) (h : s.count 'd' ≠ 1) (w : World) : rollStr s w = (.error .value, w) := by
  have hp : parseFromStr s = .error .value := by
    have hl := splitChar_length 'd' s
    unfold parseFromStr
    split
    · rename_i a b e
      rw [e] at hl
      simp at hl
      omega
    · rfl
  unfold rollStr
  rw [M.bind_error (show M.ofSettings (fun _ => parseFromStr s) w = (.error .value, w) by
    rw [show M.ofSettings (fun _ => parseFromStr s) w = (parseFromStr s, w) from rfl, hp])]

/-- C34. Every successful string roll is the roll of two integers, so nothing else can be obtained from a string. -/
theorem C34_only (s : List Char) (w w' : World) (o : Obj) (h : rollStr s w = (.ok o, w')) :
    ∃ n m : ℤ, parseFromStr s = .ok (n, m) ∧ roll (.num n) (.num m) w = (.ok o, w') := by
  cases hp : parseFromStr s with
  | ok nd => exact ⟨nd.1, nd.2, rfl, by rw [← rollStr_ok hp]; exact h⟩
  | error e =>
    unfold rollStr at h
    rw [M.bind_error (show M.ofSettings (fun _ => parseFromStr s) w = (.error e, w) by
      rw [show M.ofSettings (fun _ => parseFromStr s) w = (parseFromStr s, w) from rfl, hp])] at h
    cases h

/-! ### Exactly which strings are accepted -/

theorem isSpace_iff (c : Char) : isSpace c = true ↔ c ∈ blankChars := by
  unfold isSpace
  constructor
  · intro h
    have h' : (9 ≤ c.toNat ∧ c.toNat ≤ 13) ∨ (28 ≤ c.toNat ∧ c.toNat ≤ 32) := by simpa using h
    have e : c = Char.ofNat c.toNat := (Char.ofNat_toNat c).symm
    rw [e]
    generalize c.toNat = k at h'
    rcases h' with ⟨a, b⟩ | ⟨a, b⟩ <;> interval_cases k <;> decide
  · intro h
    simp only [blankChars, List.mem_cons, List.not_mem_nil, or_false] at h
    rcases h with rfl | rfl | rfl | rfl | rfl | rfl | rfl | rfl | rfl | rfl <;> decide

theorem digitVal_iff (c : Char) (d : ℕ) : digitVal c = some d ↔ d < 10 ∧ c = digitChar d := by
  constructor
  · intro h
    unfold digitVal at h
    split at h
    · rename_i hc
      cases h
      have e : c = Char.ofNat c.toNat := (Char.ofNat_toNat c).symm
      rw [e]
      generalize c.toNat = k at hc
      obtain ⟨a, b⟩ := hc
      interval_cases k <;> decide
    · cases h
  · rintro ⟨h, rfl⟩
    exact digitVal_digitChar h

theorem parseDigits_iff (cs : List Char) (acc n : ℕ) : parseDigits acc cs = some n ↔
    ∃ ds : List (Bool × ℕ), cs = litDigits ds ∧ (∀ x ∈ ds, x.2 < 10) ∧ ds.foldl (fun a x => 10 * a + x.2) acc = n := by
  constructor
  · intro h
    induction acc, cs using parseDigits.induct generalizing n with
    | case1 acc => cases h; exact ⟨[], rfl, by simp, rfl⟩
    | case2 acc c cs d hd ih =>
      rw [parseDigits, hd] at h
      obtain ⟨ds, rfl, h1, h2⟩ := ih n h
      obtain ⟨hd1, rfl⟩ := (digitVal_iff _ _).1 hd
      exact ⟨(true, d) :: ds, rfl, by simpa using ⟨hd1, by simpa using h1⟩, h2⟩
    | case3 acc c cs hd => rw [parseDigits, hd] at h; cases h
    | case4 acc c cs hc d hd ih =>
      rw [parseDigits, hd] at h
      · obtain ⟨ds, rfl, h1, h2⟩ := ih n h
        obtain ⟨hd1, rfl⟩ := (digitVal_iff _ _).1 hd
        exact ⟨(false, d) :: ds, rfl, by simpa using ⟨hd1, by simpa using h1⟩, h2⟩
      · exact hc
    | case5 acc c cs hc hd =>
      rw [parseDigits, hd] at h
      · cases h
      · exact hc
  · rintro ⟨ds, rfl, h1, h2⟩
    induction ds generalizing acc with
    | nil => simpa [litDigits, parseDigits] using h2
    | cons x ds ih =>
      obtain ⟨u, d⟩ := x
      have hd : d < 10 := h1 _ List.mem_cons_self
      have ih' := ih (10 * acc + d) (fun x hx => h1 x (List.mem_cons_of_mem _ hx)) h2
      cases u with
      | true =>
        change parseDigits acc ('_' :: digitChar d :: litDigits ds) = _
        rw [parseDigits, digitVal_digitChar hd]
        exact ih'
      | false =>
        change parseDigits acc (digitChar d :: litDigits ds) = _
        rw [parseDigits, digitVal_digitChar hd]
        · exact ih'
        · intro c cs hc
          exact absurd hc (digitChar_ne hd).1

theorem parseNat_iff (cs : List Char) (n : ℕ) : parseNat cs = some n ↔
    ∃ (d : ℕ) (ds : List (Bool × ℕ)), cs = digitChar d :: litDigits ds ∧ d < 10 ∧ (∀ x ∈ ds, x.2 < 10) ∧
      ds.foldl (fun a x => 10 * a + x.2) d = n := by
  constructor
  · intro h
    cases cs with
    | nil => cases h
    | cons c cs =>
      rw [parseNat] at h
      cases hd : digitVal c with
      | none => rw [hd] at h; cases h
      | some d =>
        rw [hd] at h
        obtain ⟨ds, rfl, h1, h2⟩ := (parseDigits_iff _ _ _).1 h
        obtain ⟨hd1, rfl⟩ := (digitVal_iff _ _).1 hd
        exact ⟨d, ds, rfl, hd1, h1, h2⟩
  · rintro ⟨d, ds, rfl, hd, h1, h2⟩
    rw [parseNat, digitVal_digitChar hd]
    exact (parseDigits_iff _ _ _).2 ⟨ds, rfl, h1, h2⟩

theorem parseSigned_iff (cs : List Char) (n : ℤ) : parseSigned cs = some n ↔
    ∃ (sign : List Char) (d : ℕ) (ds : List (Bool × ℕ)), cs = sign ++ digitChar d :: litDigits ds ∧ d < 10 ∧ (∀ x ∈ ds, x.2 < 10) ∧
    (sign = ['-'] ∧ n = -((ds.foldl (fun a x => 10 * a + x.2) d : ℕ) : ℤ) ∨
      (sign = [] ∨ sign = ['+']) ∧ n = ((ds.foldl (fun a x => 10 * a + x.2) d : ℕ) : ℤ)) := by
  constructor
  · intro h
    unfold parseSigned at h
    split at h <;>
    · obtain ⟨k, hk, rfl⟩ := Option.map_eq_some_iff.1 h
      obtain ⟨d, ds, rfl, h1, h2, rfl⟩ := (parseNat_iff _ _).1 hk
      first
        | exact ⟨['-'], d, ds, rfl, h1, h2, .inl ⟨rfl, rfl⟩⟩
        | exact ⟨['+'], d, ds, rfl, h1, h2, .inr ⟨.inr rfl, rfl⟩⟩
        | exact ⟨[], d, ds, rfl, h1, h2, .inr ⟨.inl rfl, rfl⟩⟩
  · rintro ⟨sign, d, ds, rfl, h1, h2, h3⟩
    have hp := (parseNat_iff _ _).2 ⟨d, ds, rfl, h1, h2, rfl⟩
    rcases h3 with ⟨rfl, rfl⟩ | ⟨rfl | rfl, rfl⟩
    · change parseSigned ('-' :: (digitChar d :: litDigits ds)) = _
      rw [parseSigned, hp]
      rfl
    · rw [List.nil_append, parseSigned, hp]
      · rfl
      · intro _ e; exact (digitChar_ne h1).2.1 (List.cons.inj e).1
      · intro _ e; exact (digitChar_ne h1).2.2.1 (List.cons.inj e).1
    · change parseSigned ('+' :: (digitChar d :: litDigits ds)) = _
      rw [parseSigned, hp]
      rfl

theorem dropWhile_split (p : Char → Bool) (l : List Char) : ∃ a, l = a ++ l.dropWhile p ∧ ∀ c ∈ a, p c = true := by
  induction l with
  | nil => exact ⟨[], rfl, by simp⟩
  | cons c l ih =>
    rw [List.dropWhile_cons]
    split
    · rename_i hc
      obtain ⟨a, h1, h2⟩ := ih
      exact ⟨c :: a, by rw [List.cons_append, ← h1], fun x hx => by
        rcases List.mem_cons.1 hx with rfl | hx
        · exact hc
        · exact h2 x hx⟩
    · exact ⟨[], rfl, by simp⟩

theorem strip_split (l : List Char) : ∃ a b, l = a ++ strip l ++ b ∧ (∀ c ∈ a, isSpace c = true) ∧ ∀ c ∈ b, isSpace c = true := by
  obtain ⟨a, h1, h2⟩ := dropWhile_split isSpace l
  obtain ⟨b, h3, h4⟩ := dropWhile_split isSpace (l.dropWhile isSpace).reverse
  refine ⟨a, b.reverse, ?_, h2, fun c hc => h4 c (by simpa using hc)⟩
  have h5 := congrArg List.reverse h3
  rw [List.reverse_reverse, List.reverse_append] at h5
  unfold strip
  rw [List.append_assoc, ← h5]
  exact h1

theorem dropWhile_all {p : Char → Bool} {a l : List Char} (ha : ∀ c ∈ a, p c = true) : (a ++ l).dropWhile p = l.dropWhile p := by
  induction a with
  | nil => rfl
  | cons c a ih =>
    rw [List.cons_append, List.dropWhile_cons, if_pos (ha c List.mem_cons_self), ih fun x hx => ha x (List.mem_cons_of_mem _ hx)]

/-- Stripping a text with no white space at its ends. -/
theorem strip_core {a b l : List Char} (ha : ∀ c ∈ a, isSpace c = true) (hb : ∀ c ∈ b, isSpace c = true) (hl : ∀ c ∈ l, isSpace c = false) :
    strip (a ++ l ++ b) = l := by
  unfold strip
  rw [List.append_assoc, dropWhile_all ha]
  cases l with
  | nil =>
    rw [List.nil_append]
    have : b.dropWhile isSpace = [] := by have := dropWhile_all (l := []) hb; simpa using this
    rw [this]; rfl
  | cons c l =>
    rw [List.cons_append, List.dropWhile_cons, if_neg (by rw [hl c List.mem_cons_self]; decide), ← List.cons_append, List.reverse_append,
      dropWhile_all fun x hx => hb x (List.mem_reverse.1 hx), dropWhile_none fun x hx => hl x (List.mem_reverse.1 hx), List.reverse_reverse]

theorem litDigits_mem (ds : List (Bool × ℕ)) (h : ∀ x ∈ ds, x.2 < 10) : ∀ c ∈ litDigits ds, isSpace c = false ∧ c ≠ 'd' := by
  induction ds with
  | nil => simp [litDigits]
  | cons x ds ih =>
    obtain ⟨u, d⟩ := x
    intro c hc
    have hd := digitChar_ne (h _ List.mem_cons_self)
    rw [litDigits, List.mem_append] at hc
    rcases hc with hc | hc
    · cases u with
      | true =>
        rcases List.mem_cons.1 hc with rfl | hc
        · decide
        · rw [List.mem_singleton.1 hc]; exact ⟨hd.2.2.2.2, hd.2.2.2.1⟩
      | false => rw [List.mem_singleton.1 hc]; exact ⟨hd.2.2.2.2, hd.2.2.2.1⟩
    · exact ih (fun x hx => h x (List.mem_cons_of_mem _ hx)) c hc

theorem literal_core {sign : List Char} {d : ℕ} {ds : List (Bool × ℕ)} (hs : sign = ['-'] ∨ sign = [] ∨ sign = ['+']) (h1 : d < 10)
    (h2 : ∀ x ∈ ds, x.2 < 10) : ∀ c ∈ sign ++ digitChar d :: litDigits ds, isSpace c = false ∧ c ≠ 'd' := by
  intro c hc
  have hd := digitChar_ne h1
  rcases List.mem_append.1 hc with hc | hc
  · rcases hs with rfl | rfl | rfl
    · rw [List.mem_singleton.1 hc]; decide
    · cases hc
    · rw [List.mem_singleton.1 hc]; decide
  · rcases List.mem_cons.1 hc with rfl | hc
    · exact ⟨hd.2.2.2.2, hd.2.2.2.1⟩
    · exact litDigits_mem ds h2 c hc

/-- The model of `int()` accepts exactly the integer literals. -/
theorem pyInt_iff (cs : List Char) (n : ℤ) : pyInt cs = .ok n ↔ IntLiteral n cs := by
  unfold pyInt
  constructor
  · intro h
    cases hp : parseSigned (strip cs) with
    | none => rw [hp] at h; cases h
    | some k =>
      rw [hp] at h
      cases h
      obtain ⟨sign, d, ds, e, h1, h2, h3⟩ := (parseSigned_iff _ _).1 hp
      obtain ⟨a, b, h4, h5, h6⟩ := strip_split cs
      rw [e] at h4
      exact ⟨a, sign, d, ds, b, h4, fun c hc => (isSpace_iff c).1 (h5 c hc), fun c hc => (isSpace_iff c).1 (h6 c hc), h1, h2, h3⟩
  · rintro ⟨a, sign, d, ds, b, rfl, ha, hb, h1, h2, h3⟩
    have hs : sign = ['-'] ∨ sign = [] ∨ sign = ['+'] := by
      rcases h3 with ⟨h, _⟩ | ⟨h, _⟩
      · exact .inl h
      · exact .inr h
    rw [strip_core (fun c hc => (isSpace_iff c).2 (ha c hc)) (fun c hc => (isSpace_iff c).2 (hb c hc))
      (fun c hc => (literal_core hs h1 h2 c hc).1), (parseSigned_iff _ _).2 ⟨sign, d, ds, rfl, h1, h2, h3⟩]

theorem IntLiteral_no_d {cs : List Char} {n : ℤ} (h : IntLiteral n cs) : 'd' ∉ cs := by
  obtain ⟨a, sign, d, ds, b, rfl, ha, hb, h1, h2, h3⟩ := h
  have hs : sign = ['-'] ∨ sign = [] ∨ sign = ['+'] := by
    rcases h3 with ⟨h, _⟩ | ⟨h, _⟩
    · exact .inl h
    · exact .inr h
  have hd : 'd' ∉ blankChars := by decide
  intro hm
  rcases List.mem_append.1 hm with hm | hm
  · rcases List.mem_append.1 hm with hm | hm
    · exact hd (ha _ hm)
    · exact (literal_core hs h1 h2 _ hm).2 rfl
  · exact hd (hb _ hm)

/-- C34. The strings that can be rolled, with what they mean: an optional number of dice, a `d`, and a number of sides, both numbers being
integer literals (which may have a sign, underscores between digits, leading zeros, and white space around them). -/
theorem C34_exactly (s : List Char) (n m : ℤ) : parseFromStr s = .ok (n, m) ↔
    ∃ a b, s = a ++ 'd' :: b ∧ (a = [] ∧ n = 1 ∨ IntLiteral n a) ∧ IntLiteral m b := by
  constructor
  · intro h
    unfold parseFromStr at h
    split at h
    · rename_i a b e
      have hsplit : s = a ++ 'd' :: b := by
        clear h
        induction s generalizing a with
        | nil => simp [splitChar] at e
        | cons c s ih =>
          rw [splitChar] at e
          split at e
          · rename_i hc
            subst hc
            obtain ⟨rfl, e2⟩ := List.cons.inj e
            rw [List.nil_append]
            congr 1
            clear ih e
            induction s generalizing b with
            | nil => simpa [splitChar] using e2
            | cons c s ih =>
              rw [splitChar] at e2
              split at e2
              · have h3 := splitChar_length 'd' s
                have h4 := (List.cons.inj e2).2
                rw [h4] at h3
                simp at h3
              · split at e2
                · rename_i h3
                  have h4 := splitChar_length 'd' s
                  rw [h3] at h4
                  simp at h4
                · rename_i l ls h3
                  obtain ⟨rfl, rfl⟩ := List.cons.inj e2
                  rw [ih l h3]
          · split at e
            · rename_i h3
              have h4 := splitChar_length 'd' s
              rw [h3] at h4
              simp at h4
            · rename_i l ls h3
              obtain ⟨rfl, rfl⟩ := List.cons.inj e
              rw [List.cons_append, ← ih l h3]
      refine ⟨a, b, hsplit, ?_⟩
      cases ha : parseCount a with
      | error e => rw [ha] at h; cases h
      | ok x =>
        cases hb : pyInt b with
        | error e => rw [ha, hb] at h; cases h
        | ok y =>
          rw [ha, hb] at h
          cases h
          refine ⟨?_, (pyInt_iff _ _).1 hb⟩
          unfold parseCount at ha
          split at ha
          · rename_i h0
            cases ha
            exact .inl ⟨h0, rfl⟩
          · exact .inr ((pyInt_iff _ _).1 ha)
    · cases h
  · rintro ⟨a, b, rfl, ha, hb⟩
    have ha' : 'd' ∉ a := by
      rcases ha with ⟨rfl, _⟩ | ha
      · simp
      · exact IntLiteral_no_d ha
    have hc : parseCount a = .ok n := by
      unfold parseCount
      rcases ha with ⟨rfl, rfl⟩ | ha
      · rfl
      · rw [if_neg, (pyInt_iff _ _).2 ha]
        obtain ⟨x, sign, d, ds, y, rfl, _⟩ := ha
        simp
    unfold parseFromStr
    rw [splitChar_append ha', splitChar_none (IntLiteral_no_d hb)]
    change (parseCount a >>= fun n => pyInt b >>= fun d => pure (n, d)) = _
    rw [hc, (pyInt_iff _ _).2 hb]
    rfl

example : IntLiteral (-105) " -1_05\n".toList :=
  ⟨[' '], ['-'], 1, [(true, 0), (false, 5)], ['\n'], by decide +kernel, by decide, by decide, by decide, by decide, .inl ⟨rfl, by decide⟩⟩

example : parseFromStr "2d6".toList = .ok (2, 6) ∧ parseFromStr "d20".toList = .ok (1, 20) ∧ parseFromStr "-3d1_0".toList = .ok (-3, 10) ∧
    parseFromStr "2d".toList = .error .value ∧ parseFromStr "2dd6".toList = .error .value ∧ parseFromStr "6".toList = .error .value := by
  decide +kernel

example : IntText (-20) "-20".toList :=
  ⟨['2', '0'], rfl, ⟨[2, 0], by decide, by decide, by decide, by decide, by decide⟩⟩

end PythonDice
