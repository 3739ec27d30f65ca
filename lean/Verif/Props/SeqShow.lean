import Verif.Model.SeqShow
import Verif.Props.Objects
import Verif.Props.Output

/-!
# C82: sequences are compared and shown by what is in them
-/

namespace PythonDice

open Spec

/-- A source that is a die or a blank, not just something that contains dice. -/
def IsDie (s : Src) : Prop := (∃ r, s = .rv r) ∨ ∃ b, s = .blank b

theorem isDie_iff (s : Src) : s.isDie = true ↔ IsDie s := by
  cases s with
  | rv r => exact ⟨fun _ => .inl ⟨r, rfl⟩, fun _ => rfl⟩
  | blank b => exact ⟨fun _ => .inr ⟨b, rfl⟩, fun _ => rfl⟩
  | num n => exact ⟨(fun h => by cases h), by rintro (⟨_, h⟩ | ⟨_, h⟩) <;> cases h⟩
  | iter l => exact ⟨(fun h => by cases h), by rintro (⟨_, h⟩ | ⟨_, h⟩) <;> cases h⟩

/-- **C82** (src/seq.py:159-166 `seqs_are_equal`): numbers and (nested) iterables are equal if they contain the same numbers in the same order and, after
these, the same outcomes of dice; a die is not compared. -/
theorem C82_equal (s t : Src) : seqsAreEqual s t = .ok true ↔ ¬ IsDie s ∧ ¬ IsDie t ∧ numbersOf s ++ facesOf s = numbersOf t ++ facesOf t := by
  unfold seqsAreEqual
  have e : ∀ s, getSeq [s] = numbersOf s ++ facesOf s := fun s => by
    rw [C24_contents]
    simp [numbersIn, facesIn]
  rw [e, e, ← isDie_iff, ← isDie_iff]
  cases s.isDie <;> cases t.isDie <;> simp

/-- C82. A die raises AssertionError, on either side, and nothing else does. -/
theorem C82_die (s t : Src) : (∃ e, seqsAreEqual s t = .error e) ↔ IsDie s ∨ IsDie t := by
  unfold seqsAreEqual
  rw [← isDie_iff, ← isDie_iff]
  cases s.isDie <;> cases t.isDie <;> simp

/-- C82. Two sequences are equal so if and only if `==` says it. -/
theorem C82_operator (s t : List ℤ) (w : World) :
    seqsAreEqual (Obj.toSrc (.seq s)) (Obj.toSrc (.seq t)) = .ok true ↔ binop .eq (.seq s) (.seq t) w = (.ok (.num 1), w) := by
  have e : seqsAreEqual (Obj.toSrc (.seq s)) (Obj.toSrc (.seq t)) = .ok (decide (getSeq [Obj.toSrc (.seq s)] = getSeq [Obj.toSrc (.seq t)])) := rfl
  rw [C23_seq_eq, e, C24_idempotent, C24_idempotent]
  by_cases h : s = t <;> simp [h]

theorem strOfInt_chars (n : ℤ) : ',' ∉ strOfInt n ∧ ')' ∉ strOfInt n := by
  have key : ∀ c : Char, c = ',' ∨ c = ')' → c ∉ strOfInt n := by
    intro c hc h
    unfold strOfInt at h
    obtain ⟨x, _, hx⟩ := List.mem_map.1 h
    cases x with
    | none => rcases hc with rfl | rfl <;> exact absurd hx (by decide)
    | some d =>
      have hx : digitChar d = c := hx
      unfold digitChar at hx
      by_cases hd : d < 10
      · interval_cases d <;> rcases hc with rfl | rfl <;> exact absurd hx (by decide)
      · rw [List.getD_eq_default _ _ (by simpa using hd)] at hx
        rcases hc with rfl | rfl <;> exact absurd hx (by decide)
  exact ⟨key _ (.inl rfl), key _ (.inr rfl)⟩

theorem digitChar_inj {d e : ℕ} (hd : d < 10) (he : e < 10) (h : digitChar d = digitChar e) : d = e := by
  revert h
  interval_cases d <;> interval_cases e <;> decide

theorem NatText.unique {m n : ℕ} {cs : List Char} (hm : NatText m cs) (hn : NatText n cs) : m = n := by
  obtain ⟨ds, h1, h2, _, _, h3⟩ := hm.ex
  obtain ⟨es, g1, g2, _, _, g3⟩ := hn.ex
  have key : ∀ l k : List ℕ, (∀ d ∈ l, d < 10) → (∀ d ∈ k, d < 10) → l.map digitChar = k.map digitChar → l = k := by
    intro l
    induction l with
    | nil => exact fun k _ _ h => (List.map_eq_nil_iff.1 h.symm).symm
    | cons d l ih =>
      intro k hl hk h
      cases k with
      | nil => cases h
      | cons e k =>
        rw [List.map_cons, List.map_cons, List.cons.injEq] at h
        rw [digitChar_inj (hl d List.mem_cons_self) (hk e List.mem_cons_self) h.1,
          ih k (fun x hx => hl x (List.mem_cons_of_mem _ hx)) (fun x hx => hk x (List.mem_cons_of_mem _ hx)) h.2]
  rw [← h3, ← g3, key ds es h2 g2 (h1.symm.trans g1)]

theorem NatText.no_minus {n : ℕ} {cs : List Char} (h : NatText n ('-' :: cs)) : False := by
  obtain ⟨ds, h1, h2, _⟩ := h.ex
  cases ds with
  | nil => cases h1
  | cons d ds =>
    rw [List.map_cons, List.cons.injEq] at h1
    have hd := h2 d List.mem_cons_self
    have h1 := h1.1
    revert h1
    interval_cases d <;> decide

theorem IntText.unique {m n : ℤ} {cs : List Char} (hm : IntText m cs) (hn : IntText n cs) : m = n := by
  unfold IntText at hm hn
  split at hm
  · obtain ⟨ds, rfl, h1⟩ := hm
    split at hn
    · obtain ⟨es, e, h2⟩ := hn
      rw [List.cons.injEq] at e
      have := NatText.unique h1 (e.2 ▸ h2)
      omega
    · exact (NatText.no_minus hn).elim
  · split at hn
    · obtain ⟨es, rfl, h2⟩ := hn
      exact (NatText.no_minus hm).elim
    · have := NatText.unique hm hn
      omega

theorem strOfInt_inj {a b : ℤ} (h : strOfInt a = strOfInt b) : a = b :=
  IntText.unique (strOfInt_text a) (h ▸ strOfInt_text b)

/-- Two numbers, each followed by a comma or a parenthesis. -/
theorem number_cut {a b : ℤ} {c d : Char} {x y : List Char} (hc : c = ',' ∨ c = ')') (hd : d = ',' ∨ d = ')')
    (h : strOfInt a ++ c :: x = strOfInt b ++ d :: y) : a = b ∧ c = d ∧ x = y := by
  have hc' : ∀ n, c ∉ strOfInt n := fun n => by rcases hc with rfl | rfl; exact (strOfInt_chars n).1; exact (strOfInt_chars n).2
  have hd' : ∀ n, d ∉ strOfInt n := fun n => by rcases hd with rfl | rfl; exact (strOfInt_chars n).1; exact (strOfInt_chars n).2
  have key : ∀ (u v : List Char), c ∉ v → d ∉ u → u ++ c :: x = v ++ d :: y → u = v ∧ c = d ∧ x = y := by
    intro u
    induction u with
    | nil =>
      intro v hv _ h
      cases v with
      | nil =>
        rw [List.nil_append, List.nil_append, List.cons.injEq] at h
        exact ⟨rfl, h⟩
      | cons e v =>
        rw [List.nil_append, List.cons_append, List.cons.injEq] at h
        exact absurd (h.1 ▸ List.mem_cons_self) hv
    | cons e u ih =>
      intro v hv hu h
      cases v with
      | nil =>
        rw [List.nil_append, List.cons_append, List.cons.injEq] at h
        exact absurd (h.1 ▸ List.mem_cons_self) hu
      | cons f v =>
        rw [List.cons_append, List.cons_append, List.cons.injEq] at h
        obtain ⟨rfl, h⟩ := h
        obtain ⟨rfl, h2⟩ := ih v (fun m => hv (List.mem_cons_of_mem _ m)) (fun m => hu (List.mem_cons_of_mem _ m)) h
        exact ⟨rfl, h2⟩
  obtain ⟨h1, h2⟩ := key _ _ (hc' b) (hd' a) h
  exact ⟨strOfInt_inj h1, h2⟩

theorem tupleRest_cons (s : List ℤ) : ∃ c x, tupleRest s = c :: x ∧ (c = ',' ∨ c = ')') := by
  cases s with
  | nil => exact ⟨_, _, rfl, .inr rfl⟩
  | cons n s => exact ⟨_, _, rfl, .inl rfl⟩

theorem tupleRest_inj {s t : List ℤ} (h : tupleRest s = tupleRest t) : s = t := by
  induction s generalizing t with
  | nil =>
    cases t with
    | nil => rfl
    | cons b t =>
      rw [tupleRest, tupleRest, List.cons.injEq] at h
      exact absurd h.1 (by decide)
  | cons a s ih =>
    cases t with
    | nil =>
      rw [tupleRest, tupleRest, List.cons.injEq] at h
      exact absurd h.1 (by decide)
    | cons b t =>
      rw [tupleRest, tupleRest, List.cons.injEq, List.cons.injEq] at h
      obtain ⟨c, x, h1, h2⟩ := tupleRest_cons s
      obtain ⟨d, y, h3, h4⟩ := tupleRest_cons t
      have h5 := h.2.2
      rw [h1, h3] at h5
      obtain ⟨rfl, rfl, rfl⟩ := number_cut h2 h4 h5
      rw [ih (h1.trans h3.symm)]

/-- C82. `repr` shows different sequences differently. -/
theorem C82_repr {s t : List ℤ} (h : seqRepr s = seqRepr t) : s = t := by
  have h : tupleRepr s = tupleRepr t := by
    unfold seqRepr at h
    exact List.append_cancel_left (List.append_cancel_right h)
  have first : ∀ (a : ℤ) (c : Char) (x y : List Char), (c = ',' ∨ c = ')') → strOfInt a ++ c :: x ≠ ')' :: y := by
    intro a c x y hc e
    cases hs : strOfInt a with
    | nil =>
      have := strOfInt_text a
      rw [hs] at this
      unfold IntText at this
      split at this
      · obtain ⟨_, h, _⟩ := this
        cases h
      · obtain ⟨ds, h1, _, h2, _⟩ := this.ex
        exact h2 (List.map_eq_nil_iff.1 h1.symm)
    | cons d l =>
      rw [hs, List.cons_append, List.cons.injEq] at e
      exact (strOfInt_chars a).2 (by rw [hs, e.1]; exact List.mem_cons_self)
  have many : ∀ (a b : ℤ) (l : List ℤ), tupleRepr (a :: b :: l) = '(' :: (strOfInt a ++ tupleRest (b :: l)) := fun _ _ _ => rfl
  rcases s with _ | ⟨a, _ | ⟨a', s⟩⟩ <;> rcases t with _ | ⟨b, _ | ⟨b', t⟩⟩
  · rfl
  · exact absurd (List.cons.inj h).2.symm (first b ',' _ _ (.inl rfl))
  · exact absurd (List.cons.inj h).2.symm (first b ',' _ _ (.inl rfl))
  · exact absurd (List.cons.inj h).2 (first a ',' _ _ (.inl rfl))
  · obtain ⟨rfl, _⟩ := number_cut (.inl rfl) (.inl rfl) (List.cons.inj h).2
    rfl
  · obtain ⟨_, _, e⟩ := number_cut (.inl rfl) (.inl rfl) (List.cons.inj h).2
    cases e
  · exact absurd (List.cons.inj h).2 (first a ',' _ _ (.inl rfl))
  · obtain ⟨_, _, e⟩ := number_cut (.inl rfl) (.inl rfl) (List.cons.inj h).2
    cases e
  · rw [many, many] at h
    obtain ⟨rfl, _, e⟩ := number_cut (.inl rfl) (.inl rfl) (List.cons.inj h).2
    have e' : tupleRest (a' :: s) = tupleRest (b' :: t) := congrArg (',' :: ·) e
    rw [tupleRest_inj e']

/-- C82. The form of `repr`: the numbers in decimal between `Seq((` and `))`, separated by a comma and a space; after a single number there is a
comma, too. -/
theorem C82_repr_form (s : List ℤ) : ∃ ts, List.Forall₂ IntText s ts ∧
    seqRepr s = "Seq((".toList ++ [',', ' '].intercalate ts ++ (if s.length = 1 then [','] else []) ++ "))".toList := by
  refine ⟨s.map strOfInt, ?_, ?_⟩
  · rw [List.forall₂_map_right_iff]
    exact List.forall₂_same.2 fun x _ => strOfInt_text x
  · have rest : ∀ l : List ℤ, ∀ a : List Char, a ++ tupleRest l = [',', ' '].intercalate (a :: l.map strOfInt) ++ [')'] := by
      intro l
      induction l with
      | nil => intro a; simp [tupleRest, List.intercalate]
      | cons b l ih =>
        intro a
        rw [tupleRest, ih, List.map_cons]
        cases l <;> simp [List.intercalate]
    rcases s with _ | ⟨a, _ | ⟨b, s⟩⟩
    · rfl
    · simp [seqRepr, tupleRepr, List.intercalate]
    · have : tupleRepr (a :: b :: s) = '(' :: (strOfInt a ++ tupleRest (b :: s)) := rfl
      rw [seqRepr, this, rest]
      simp

example : seqsAreEqual (.iter [.num 1, .iter [.num 2]]) (.iter [.num 1, .num 2]) = .ok true := by decide +kernel
example : seqsAreEqual (.num 1) (.iter [.num 1, .num 2]) = .ok false := by decide +kernel
example : seqsAreEqual (.iter [.rv ⟨[1, 2], [1, 1], none⟩]) (.iter [.num 1, .num 2]) = .ok true := by decide +kernel
example : seqsAreEqual (.rv ⟨[1, 2], [1, 1], none⟩) (.iter [.num 1, .num 2]) = .error .assertion := by decide +kernel
example : seqRepr [1, -20] = "Seq((1, -20))".toList ∧ seqRepr [3] = "Seq((3,))".toList ∧ seqRepr [] = "Seq(())".toList := by decide +kernel

end PythonDice
