import Verif.Spec.StringText
import Mathlib.Tactic.IntervalCases

/-!
# Outcomes made of strings can be read back from their text
-/

namespace Spec

/-- The value of a digit character. -/
def digitVal (c : Char) : ℕ := c.toNat - 48

theorem digitVal_digitChar {d : ℕ} (h : d < 10) : digitVal (digitChar d) = d := by
  interval_cases d <;> rfl

theorem natText_inj {m n : ℕ} {s : List Char} (hm : NatText m s) (hn : NatText n s) : m = n := by
  obtain ⟨ds, h1, h2, -, -, h5⟩ := hm.ex
  obtain ⟨es, k1, k2, -, -, k5⟩ := hn.ex
  have key : ∀ l : List ℕ, (∀ d ∈ l, d < 10) → (l.map digitChar).map digitVal = l := by
    intro l hl
    rw [List.map_map]
    conv_rhs => rw [← List.map_id l]
    exact List.map_congr_left fun d hd => digitVal_digitChar (hl d hd)
  have : ds = es := by rw [← key ds h2, ← key es k2, ← h1, ← k1]
  rw [← h5, ← k5, this]

/-- The characters of a decimal number. -/
def intChars : List Char := ['-', '0', '1', '2', '3', '4', '5', '6', '7', '8', '9']

theorem digitChar_mem {d : ℕ} (h : d < 10) : digitChar d ∈ intChars ∧ digitChar d ≠ '-' := by
  interval_cases d <;> decide

theorem natText_chars {n : ℕ} {s : List Char} (h : NatText n s) : s ≠ [] ∧ ∀ c ∈ s, c ∈ intChars ∧ c ≠ '-' := by
  obtain ⟨ds, rfl, h2, h3, -, -⟩ := h.ex
  refine ⟨by simpa using h3, fun c hc => ?_⟩
  obtain ⟨d, hd, rfl⟩ := List.mem_map.1 hc
  exact digitChar_mem (h2 d hd)

theorem intText_chars {n : ℤ} {s : List Char} (h : IntText n s) : s ≠ [] ∧ ∀ c ∈ s, c ∈ intChars := by
  unfold IntText at h
  split at h
  · obtain ⟨ds, rfl, h⟩ := h
    refine ⟨by simp, fun c hc => ?_⟩
    rcases List.mem_cons.1 hc with rfl | hc
    · decide
    · exact ((natText_chars h).2 c hc).1
  · exact ⟨(natText_chars h).1, fun c hc => ((natText_chars h).2 c hc).1⟩

theorem intText_inj {m n : ℤ} {s : List Char} (hm : IntText m s) (hn : IntText n s) : m = n := by
  unfold IntText at hm hn
  split at hm <;> split at hn
  · obtain ⟨ds, e, h⟩ := hm
    obtain ⟨es, e', k⟩ := hn
    rw [e, List.cons.injEq] at e'
    rw [e'.2] at h
    have := natText_inj h k
    omega
  · obtain ⟨ds, e, h⟩ := hm
    exact absurd rfl ((natText_chars hn).2 '-' (by rw [e]; exact List.mem_cons_self)).2
  · obtain ⟨ds, e, h⟩ := hn
    exact absurd rfl ((natText_chars hm).2 '-' (by rw [e]; exact List.mem_cons_self)).2
  · have := natText_inj hm hn
    omega

/-- A separator that does not occur in the first part determines the parts. -/
theorem split_unique {c : Char} {x y r s : List Char} (hx : c ∉ x) (hy : c ∉ y) (h : x ++ c :: r = y ++ c :: s) : x = y ∧ r = s := by
  induction x generalizing y with
  | nil =>
    cases y with
    | nil => simpa using h
    | cons b y =>
      simp only [List.nil_append, List.cons_append, List.cons.injEq] at h
      exact absurd (by rw [h.1]; exact List.mem_cons_self) hy
  | cons a x ih =>
    cases y with
    | nil =>
      simp only [List.nil_append, List.cons_append, List.cons.injEq] at h
      exact absurd (by rw [h.1]; exact List.mem_cons_self) hx
    | cons b y =>
      simp only [List.cons_append, List.cons.injEq] at h
      obtain ⟨rfl, h⟩ := h
      obtain ⟨rfl, rfl⟩ := ih (fun m => hx (List.mem_cons_of_mem _ m)) (fun m => hy (List.mem_cons_of_mem _ m)) h
      exact ⟨rfl, rfl⟩

theorem plusJoin_cons (t u : List Char) (ts : List (List Char)) : plusJoin (t :: u :: ts) = t ++ [' ', '+', ' '] ++ plusJoin (u :: ts) := rfl

theorem plusJoin_inj_cons {t u : List Char} {ts us : List (List Char)} (ht : ∀ x ∈ t :: ts, '+' ∉ x) (hu : ∀ x ∈ u :: us, '+' ∉ x)
    (h : plusJoin (t :: ts) = plusJoin (u :: us)) : t :: ts = u :: us := by
  induction ts generalizing t u us with
  | nil =>
    cases us with
    | nil => exact congrArg (fun x => [x]) h
    | cons v us =>
      rw [plusJoin_cons] at h
      exact absurd (by rw [show t = _ from h]; simp) (ht t List.mem_cons_self)
  | cons t' ts ih =>
    cases us with
    | nil =>
      rw [plusJoin_cons] at h
      exact absurd (by rw [show u = _ from h.symm]; simp) (hu u List.mem_cons_self)
    | cons v us =>
      rw [plusJoin_cons, plusJoin_cons] at h
      have h' : (t ++ [' ']) ++ '+' :: ([' '] ++ plusJoin (t' :: ts)) = (u ++ [' ']) ++ '+' :: ([' '] ++ plusJoin (v :: us)) := by
        simpa using h
      obtain ⟨e1, e2⟩ := split_unique (by simpa using ht t List.mem_cons_self) (by simpa using hu u List.mem_cons_self) h'
      have e1 : t = u := List.append_cancel_right e1
      have e2 := ih (fun x hx => ht x (List.mem_cons_of_mem _ hx)) (fun x hx => hu x (List.mem_cons_of_mem _ hx)) (List.append_cancel_left e2)
      rw [e1, e2]

theorem plusJoin_inj {ts us : List (List Char)} (ht : ∀ x ∈ ts, '+' ∉ x) (hu : ∀ x ∈ us, '+' ∉ x) (ht' : ts ≠ [[]]) (hu' : us ≠ [[]])
    (h : plusJoin ts = plusJoin us) : ts = us := by
  match ts, us with
  | [], [] => rfl
  | [], [u] => exact absurd (by rw [show [] = u from h]) hu'
  | [t], [] => exact absurd (by rw [show t = [] from h]) ht'
  | [], u :: v :: us => rw [plusJoin_cons] at h; simp [plusJoin] at h
  | t :: v :: ts, [] => rw [plusJoin_cons] at h; simp [plusJoin] at h
  | t :: ts, u :: us => exact plusJoin_inj_cons ht hu h

theorem plusJoin_snoc {ts : List (List Char)} (h : ts ≠ []) (d : List Char) : plusJoin (ts ++ [d]) = plusJoin ts ++ [' ', '+', ' '] ++ d := by
  induction ts with
  | nil => exact absurd rfl h
  | cons t ts ih =>
    cases ts with
    | nil => rfl
    | cons u ts =>
      rw [List.cons_append, List.cons_append, plusJoin_cons, plusJoin_cons, ← List.cons_append, ih (by simp)]
      simp

/-- All pieces between the separators. -/
def plusPieces (terms : List (List Char)) : Option (List Char) → List (List Char)
  | none => terms
  | some d => (if terms = [] then [[]] else terms) ++ [d]

theorem plusJoin_plusPieces (terms : List (List Char)) (d : List Char) :
    plusJoin (plusPieces terms (some d)) = plusJoin terms ++ ([' ', '+', ' '] ++ d) := by
  change plusJoin ((if terms = [] then [[]] else terms) ++ [d]) = _
  split
  · rename_i h; subst h; rfl
  · rename_i h; rw [plusJoin_snoc h]; simp

theorem plusPieces_inj {T U : List (List Char)} {c d : Option (List Char)} (p : List Char → Prop) (hT : ∀ x ∈ T, p x) (hU : ∀ x ∈ U, p x)
    (h0 : ¬ p []) (hc : ∀ x, c = some x → ¬ p x) (hd : ∀ x, d = some x → ¬ p x) (h : plusPieces T c = plusPieces U d) : T = U ∧ c = d := by
  cases c with
  | none =>
    cases d with
    | none => exact ⟨h, rfl⟩
    | some y =>
      exact absurd (hT y (by rw [show T = _ from h]; simp [plusPieces])) (hd y rfl)
  | some x =>
    cases d with
    | none => exact absurd (hU x (by rw [show U = _ from h.symm]; simp [plusPieces])) (hc x rfl)
    | some y =>
      obtain ⟨e1, e2⟩ := List.append_inj' h rfl
      refine ⟨?_, by simpa using e2⟩
      split at e1 <;> split at e1
      · rename_i a b; rw [a, b]
      · exact absurd (hU [] (by rw [← e1]; exact List.mem_cons_self)) h0
      · exact absurd (hT [] (by rw [e1]; exact List.mem_cons_self)) h0
      · exact e1

theorem plain_letter {k : List Char} (h : PlainName k) : ∃ c ∈ k, c.isAlpha = true := by
  obtain ⟨⟨c, cs, rfl, hc⟩, -⟩ := h
  exact ⟨c, List.mem_cons_self, hc⟩

theorem intChars_not : ∀ c ∈ intChars, c.isAlpha = false ∧ c ≠ '+' ∧ c ≠ '*' ∧ c ≠ '"' ∧ c ≠ ' ' := by decide

theorem intText_not {n : ℤ} {s : List Char} (h : IntText n s) :
    (∀ c ∈ s, c.isAlpha = false) ∧ '+' ∉ s ∧ '*' ∉ s ∧ '"' ∉ s ∧ ' ' ∉ s := by
  have := (intText_chars h).2
  exact ⟨fun c hc => (intChars_not c (this c hc)).1, fun hc => (intChars_not _ (this _ hc)).2.1 rfl, fun hc => (intChars_not _ (this _ hc)).2.2.1 rfl,
    fun hc => (intChars_not _ (this _ hc)).2.2.2.1 rfl, fun hc => (intChars_not _ (this _ hc)).2.2.2.2 rfl⟩

/-- A term of a plain string: it has a letter, no plus sign, and does not begin with a quote or a space. -/
theorem term_facts {k t : List Char} {n : ℤ} (hk : PlainName k) (h : TermText k n t) :
    (∃ c ∈ t, c.isAlpha = true) ∧ '+' ∉ t ∧ ∃ c cs, t = c :: cs ∧ c ≠ '"' := by
  obtain ⟨c, cs, e, ha⟩ := hk.1
  unfold TermText at h
  split at h
  · subst h
    refine ⟨plain_letter hk, hk.2.1, c, cs, e, ?_⟩
    rintro rfl
    exact absurd ha (by decide)
  · obtain ⟨ds, hd, rfl⟩ := h
    obtain ⟨c', hc', ha'⟩ := plain_letter hk
    refine ⟨⟨c', by simp [hc'], ha'⟩, ?_, ?_⟩
    · simp only [List.mem_append, List.mem_cons, not_or]
      exact ⟨(intText_not hd).2.1, by decide, hk.2.1⟩
    · cases ds with
      | nil => exact absurd rfl (intText_chars hd).1
      | cons a as =>
        refine ⟨a, _, rfl, ?_⟩
        rintro rfl
        exact (intText_not hd).2.2.2.1 List.mem_cons_self

theorem term_inj {k k' t : List Char} {n n' : ℤ} (hk : PlainName k) (hk' : PlainName k') (h : TermText k n t) (h' : TermText k' n' t) :
    k = k' ∧ n = n' := by
  unfold TermText at h h'
  split at h <;> split at h'
  · exact ⟨h.symm.trans h', by omega⟩
  · obtain ⟨ds, -, e⟩ := h'
    exact absurd (by rw [← h, e]; simp) hk.2.2
  · obtain ⟨ds, -, e⟩ := h
    exact absurd (by rw [← h', e]; simp) hk'.2.2
  · obtain ⟨ds, hd, e⟩ := h
    obtain ⟨es, he, e'⟩ := h'
    rw [e] at e'
    obtain ⟨rfl, rfl⟩ := split_unique (intText_not hd).2.2.1 (intText_not he).2.2.1 e'
    exact ⟨rfl, intText_inj hd he⟩

theorem terms_inj {f g : List Char → Option ℤ} {ks js : List (List Char)} {terms : List (List Char)}
    (hf : ∀ k ∈ ks, PlainName k) (hg : ∀ k ∈ js, PlainName k)
    (h : List.Forall₂ (fun k u => ∃ n, f k = some n ∧ TermText k n u) ks terms)
    (h' : List.Forall₂ (fun k u => ∃ n, g k = some n ∧ TermText k n u) js terms) : ks = js ∧ ∀ k ∈ ks, f k = g k := by
  induction h generalizing js with
  | nil => cases h'; exact ⟨rfl, by simp⟩
  | @cons k u ks us hk _ ih =>
    cases h' with
    | @cons j _ js _ hj hjs =>
      obtain ⟨n, e, ht⟩ := hk
      obtain ⟨m, e', ht'⟩ := hj
      obtain ⟨rfl, rfl⟩ := term_inj (hf k List.mem_cons_self) (hg j List.mem_cons_self) ht ht'
      obtain ⟨rfl, h2⟩ := ih (fun x hx => hf x (List.mem_cons_of_mem _ hx)) (fun x hx => hg x (List.mem_cons_of_mem _ hx)) hjs
      refine ⟨rfl, fun x hx => ?_⟩
      rcases List.mem_cons.1 hx with rfl | hx
      · rw [e, e']
      · exact h2 x hx

theorem tail_option {c : Option ℤ} {t : List Char} (h : TailText c t) :
    ∃ d : Option (List Char), (∀ terms, plusJoin terms ++ t = plusJoin (plusPieces terms d)) ∧ (∀ x, d = some x → ∃ n, c = some n ∧ IntText n x) ∧
      (d = none → c = none) := by
  cases c with
  | none => exact ⟨none, fun terms => by rw [show t = [] from h]; simp [plusPieces], by simp, fun _ => rfl⟩
  | some n =>
    obtain ⟨ds, hd, rfl⟩ := h
    refine ⟨some ds, fun terms => (plusJoin_plusPieces terms ds).symm, ?_, by simp⟩
    rintro x h
    cases h
    exact ⟨n, rfl, hd⟩

theorem forall2_right {α β : Type} {R : α → β → Prop} {p : β → Prop} {l : List α} {m : List β} (h : List.Forall₂ R l m)
    (hp : ∀ a ∈ l, ∀ b, R a b → p b) : ∀ b ∈ m, p b := by
  induction h with
  | nil => simp
  | cons hab _ ih =>
    intro b hb
    rcases List.mem_cons.1 hb with rfl | hb
    · exact hp _ List.mem_cons_self _ hab
    · exact ih (fun a ha => hp a (List.mem_cons_of_mem _ ha)) b hb

/-- Sums of plain strings and a number are determined by their text. -/
theorem sumText_inj {f g : List Char → Option ℤ} {t : List Char} (hf : ∀ k, k ≠ numberKey → f k ≠ none → PlainName k)
    (hg : ∀ k, k ≠ numberKey → g k ≠ none → PlainName k) (h : SumText f t) (h' : SumText g t) : f = g := by
  obtain ⟨ks, terms, tail, -, k2, k3, k4, rfl⟩ := h
  obtain ⟨js, terms', tail', -, j2, j3, j4, e⟩ := h'
  obtain ⟨d, d1, d2, d3⟩ := tail_option k4
  obtain ⟨d', d1', d2', d3'⟩ := tail_option j4
  rw [d1, d1'] at e
  have pk : ∀ k ∈ ks, PlainName k := fun k hk => hf k ((k2 k).1 hk).1 ((k2 k).1 hk).2
  have pj : ∀ k ∈ js, PlainName k := fun k hk => hg k ((j2 k).1 hk).1 ((j2 k).1 hk).2
  have ft := forall2_right (p := fun t => (∃ c ∈ t, c.isAlpha = true) ∧ '+' ∉ t) k3 fun a ha b ⟨n, _, hb⟩ =>
    ⟨(term_facts (pk a ha) hb).1, (term_facts (pk a ha) hb).2.1⟩
  have ft' := forall2_right (p := fun t => (∃ c ∈ t, c.isAlpha = true) ∧ '+' ∉ t) j3 fun a ha b ⟨n, _, hb⟩ =>
    ⟨(term_facts (pj a ha) hb).1, (term_facts (pj a ha) hb).2.1⟩
  have nl : ∀ (c : Option ℤ) (d : Option (List Char)), (∀ x, d = some x → ∃ n, c = some n ∧ IntText n x) →
      ∀ x, d = some x → ¬ (∃ a ∈ x, a.isAlpha = true) := by
    rintro c d hd x hx ⟨a, ha, hb⟩
    obtain ⟨n, -, hn⟩ := hd x hx
    rw [(intText_not hn).1 a ha] at hb
    cases hb
  have np : ∀ (c : Option ℤ) (d : Option (List Char)) (T : List (List Char)), (∀ x, d = some x → ∃ n, c = some n ∧ IntText n x) →
      (∀ x ∈ T, (∃ c ∈ x, c.isAlpha = true) ∧ '+' ∉ x) → (∀ x ∈ plusPieces T d, '+' ∉ x) ∧ plusPieces T d ≠ [[]] := by
    intro c d T hd hT
    cases d with
    | none => exact ⟨fun x hx => (hT x hx).2, fun e => by
        obtain ⟨⟨c, hc, -⟩, -⟩ := hT [] (by rw [show T = _ from e]; exact List.mem_cons_self)
        cases hc⟩
    | some y =>
      obtain ⟨n, -, hn⟩ := hd y rfl
      constructor
      · intro x hx
        simp only [plusPieces, List.mem_append, List.mem_singleton] at hx
        rcases hx with hx | rfl
        · split at hx
          · simp at hx; subst hx; simp
          · exact (hT x hx).2
        · exact (intText_not hn).2.1
      · intro e
        have := congrArg List.length e
        simp only [plusPieces, List.length_append, List.length_singleton] at this
        split at this
        · simp at this
        · rename_i hne; exact hne (List.length_eq_zero_iff.1 (by omega))
  have e' := plusJoin_inj (np _ d terms d2 ft).1 (np _ d' terms' d2' ft').1 (np _ d terms d2 ft).2 (np _ d' terms' d2' ft').2 e
  obtain ⟨rfl, rfl⟩ := plusPieces_inj (fun t => ∃ c ∈ t, c.isAlpha = true) (fun x hx => (ft x hx).1) (fun x hx => (ft' x hx).1)
    (by rintro ⟨c, hc, -⟩; cases hc) (nl _ d d2) (nl _ d' d2') e'
  obtain ⟨rfl, h2⟩ := terms_inj pk pj k3 j3
  funext k
  by_cases hk : k = numberKey
  · subst hk
    cases d with
    | none => rw [d3 rfl, d3' rfl]
    | some x =>
      obtain ⟨n, e1, e2⟩ := d2 x rfl
      obtain ⟨m, e3, e4⟩ := d2' x rfl
      rw [e1, e3, intText_inj e2 e4]
  · by_cases hm : k ∈ ks
    · exact h2 k hm
    · have a := fun h => hm ((k2 k).2 ⟨hk, h⟩)
      have b := fun h => hm ((j2 k).2 ⟨hk, h⟩)
      rw [not_not.1 a, not_not.1 b]

/-- A sum of plain strings is not written like a number, nor with a leading quote. -/
theorem sumText_plain {f : List Char → Option ℤ} {t : List Char} (hf : ∀ k, k ≠ numberKey → f k ≠ none → PlainName k) (h : SumText f t) :
    (∀ n, ¬ IntText n t) ∧ ∀ u, t ≠ '"' :: u := by
  obtain ⟨ks, terms, tail, -, k2, k3, k4, rfl⟩ := h
  have pk : ∀ k ∈ ks, PlainName k := fun k hk => hf k ((k2 k).1 hk).1 ((k2 k).1 hk).2
  cases k3 with
  | nil =>
    cases hc : f numberKey with
    | none =>
      rw [hc] at k4
      rw [show tail = [] from k4]
      exact ⟨fun n hn => (intText_chars hn).1 rfl, fun u hu => by cases hu⟩
    | some n =>
      rw [hc] at k4
      obtain ⟨ds, hd, rfl⟩ := k4
      exact ⟨fun m hm => (intText_not hm).2.1 (by simp), fun u hu => by simp [plusJoin] at hu⟩
  | @cons k u ks us hk hks =>
    obtain ⟨n, -, ht⟩ := hk
    obtain ⟨⟨c, hc, ha⟩, -, c', cs, e, hq⟩ := term_facts (pk k List.mem_cons_self) ht
    have hj : ∃ w, plusJoin (u :: us) = u ++ w := by
      cases us with
      | nil => exact ⟨[], by simp [plusJoin]⟩
      | cons v us => exact ⟨[' ', '+', ' '] ++ plusJoin (v :: us), by rw [plusJoin_cons]; simp⟩
    obtain ⟨w, hw⟩ := hj
    rw [hw]
    constructor
    · intro m hm
      have := (intText_not hm).1 c (by simp [hc])
      rw [ha] at this
      cases this
    · intro v hv
      rw [e] at hv
      simp only [List.cons_append, List.cons.injEq] at hv
      exact hq hv.1

theorem numeral_head {dig : Char → Bool} {s : List Char} (h : Numeral dig s) : ∃ c cs, s = c :: cs ∧ (c = '-' ∨ dig c = true) := by
  obtain ⟨sign, a, b, nl, rfl, hs, ha, hd, -⟩ := h
  cases a with
  | nil => exact absurd rfl ha
  | cons x a =>
    rcases hs with rfl | rfl
    · exact ⟨x, _, rfl, .inr (hd x List.mem_cons_self)⟩
    · exact ⟨'-', _, rfl, .inl rfl⟩

theorem numeral_not_plain {dig : Char → Bool} (D : DigitClass dig) {s : List Char} (h : Numeral dig s) : ¬ PlainName s ∧ s ≠ numberKey := by
  obtain ⟨c, cs, rfl, hc⟩ := numeral_head h
  constructor
  · rintro ⟨⟨c', cs', e, ha⟩, -⟩
    cases e
    rcases hc with rfl | hc
    · exact absurd ha (by decide)
    · rw [D.alpha c ha] at hc; cases hc
  · intro e
    have : c = '_' := by
      have h1 : numberKey.head? = some '_' := by decide +kernel
      rw [← e] at h1
      exact Option.some.inj h1
    subst this
    rcases hc with hc | hc
    · exact absurd hc (by decide)
    · rw [D.other '_' (by simp)] at hc; cases hc

theorem plain_not_oneNumeral {dig : Char → Bool} (D : DigitClass dig) {f : List Char → Option ℤ}
    (hf : ∀ k, k ≠ numberKey → f k ≠ none → PlainName k) : ¬ OneNumeral dig f := by
  rintro ⟨s, hs, h⟩
  obtain ⟨h1, h2⟩ := numeral_not_plain D hs
  exact h1 (hf s h2 ((h s).2 rfl))

theorem single_oneNumeral {dig : Char → Bool} {f : List Char → Option ℤ} {s : List Char} (hs : Numeral dig s)
    (hf : ∀ k, f k = if k = s then some 1 else none) : OneNumeral dig f := ⟨s, hs, fun k => by rw [hf]; split <;> simp_all⟩

theorem single_text {f : List Char → Option ℤ} {s t : List Char} (hn : s ≠ numberKey) (hf : ∀ k, f k = if k = s then some 1 else none)
    (h : SumText f t) : t = s := by
  obtain ⟨ks, terms, tail, k1, k2, k3, k4, rfl⟩ := h
  have hm : ∀ k, k ∈ ks ↔ k = s := fun k => by
    rw [k2, hf]
    constructor
    · rintro ⟨-, h⟩; by_contra hne; rw [if_neg hne] at h; exact h rfl
    · rintro rfl; exact ⟨hn, by simp⟩
  have hks : ks = [s] := by
    match ks, hm, k1 with
    | [], hm, _ => exact absurd ((hm s).2 rfl) (by simp)
    | [x], hm, _ => rw [(hm x).1 List.mem_cons_self]
    | x :: y :: l, hm, k1 =>
      have a := (hm x).1 List.mem_cons_self
      have b := (hm y).1 (List.mem_cons_of_mem _ List.mem_cons_self)
      rw [a, b, List.pairwise_cons] at k1
      exact absurd (k1.1 s List.mem_cons_self) (lt_irrefl _)
  subst hks
  rw [hf, if_neg (Ne.symm hn)] at k4
  rw [show tail = [] from k4]
  cases k3 with
  | @cons _ u _ us hu hus =>
    cases hus
    obtain ⟨n, e, ht⟩ := hu
    rw [hf, if_pos rfl] at e
    cases e
    rw [TermText, if_pos rfl] at ht
    simp [plusJoin, ht]

/-- Outcomes that can be read back are determined by how they are shown. -/
theorem shows_inj {dig : Char → Bool} (D : DigitClass dig) {c d : ℤ ⊕ (List Char → Option ℤ)} {t : List Char} (hc : Readable dig c)
    (hd : Readable dig d) (h : Shows dig c t) (h' : Shows dig d t) : c = d := by
  have mixed : ∀ (n : ℤ) (f : List Char → Option ℤ), Readable dig (.inr f) → IntText n t → ¬ Shows dig (.inr f) t := by
    rintro n f hf hn ⟨u, hu, hs⟩
    rcases hs with ⟨-, rfl⟩ | ⟨hno, rfl⟩
    · exact (intText_not hn).2.2.2.1 (by simp)
    · rcases hf with hf | ⟨s, hs, hf⟩
      · exact (sumText_plain hf hu).1 n hn
      · exact hno (single_oneNumeral hs hf)
  match c, d with
  | .inl m, .inl n => rw [intText_inj h h']
  | .inl m, .inr g => exact absurd h' (mixed m g hd h)
  | .inr f, .inl n => exact absurd h (mixed n f hc h')
  | .inr f, .inr g =>
    obtain ⟨u, hu, hs⟩ := h
    obtain ⟨v, hv, hs'⟩ := h'
    have half : ∀ {f g : List Char → Option ℤ} {u v : List Char}, (∀ k, k ≠ numberKey → f k ≠ none → PlainName k) →
        (∃ s, Numeral dig s ∧ ∀ k, g k = if k = s then some 1 else none) → SumText f u →
        (OneNumeral dig f ∧ t = '"' :: u ++ ['"'] ∨ ¬ OneNumeral dig f ∧ t = u) →
        (OneNumeral dig g ∧ t = '"' :: v ++ ['"'] ∨ ¬ OneNumeral dig g ∧ t = v) → False := by
      rintro f g u v hf ⟨s, hsn, hg⟩ hu hs hs'
      rcases hs with ⟨h, -⟩ | ⟨-, rfl⟩
      · exact plain_not_oneNumeral D hf h
      · rcases hs' with ⟨-, e⟩ | ⟨h, -⟩
        · exact (sumText_plain hf hu).2 _ e
        · exact h (single_oneNumeral hsn hg)
    rcases hc with hf | hf <;> rcases hd with hg | hg
    · rcases hs with ⟨h, -⟩ | ⟨-, rfl⟩
      · exact absurd h (plain_not_oneNumeral D hf)
      · rcases hs' with ⟨h, -⟩ | ⟨-, rfl⟩
        · exact absurd h (plain_not_oneNumeral D hg)
        · rw [sumText_inj hf hg hu hv]
    · exact (half hf hg hu hs hs').elim
    · exact (half hg hf hv hs' hs).elim
    · obtain ⟨s, hsn, hf⟩ := hf
      obtain ⟨s', hsn', hg⟩ := hg
      have e1 := single_text (numeral_not_plain D hsn).2 hf hu
      have e2 := single_text (numeral_not_plain D hsn').2 hg hv
      rcases hs with ⟨-, rfl⟩ | ⟨h, -⟩
      · rcases hs' with ⟨-, e⟩ | ⟨h, -⟩
        · have : u = v := by simpa using e
          rw [e1, e2] at this
          subst this
          congr 1
          funext k
          rw [hf, hg]
        · exact absurd (single_oneNumeral hsn' hg) h
      · exact absurd (single_oneNumeral hsn hf) h

end Spec
