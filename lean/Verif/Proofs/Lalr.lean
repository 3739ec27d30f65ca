import Mathlib.Data.Nat.Bitwise
import Verif.Proofs.Digraph
import Verif.Model.Lalr

/-!
# Rounds of propagation give what the algorithm of DeRemer and Pennello gives
-/

namespace PythonDice.Yacc

open Relation

/-- What is stored for a transition. -/
def look {γ : Type} (R : List (List (ℕ × γ))) (t : Trans) : Option γ := assoc t.2 (R.getD t.1 [])

/-- The keys of a layout. -/
def keysOf {γ : Type} (R : List (List (ℕ × γ))) : List (List ℕ) := R.map fun r => r.map Prod.fst

theorem assoc_isSome {γ δ : Type} (x : ℕ) : ∀ (l : List (ℕ × γ)) (m : List (ℕ × δ)), l.map Prod.fst = m.map Prod.fst →
    (assoc x l).isSome = (assoc x m).isSome
  | [], [], _ => rfl
  | [], _ :: _, h => by cases h
  | _ :: _, [], h => by cases h
  | (y, v) :: l, (z, w) :: m, h => by
      rw [List.map_cons, List.map_cons, List.cons.injEq] at h
      obtain ⟨h1, h2⟩ := h
      dsimp only at h1
      subst h1
      rw [assoc, assoc]
      split
      · rfl
      · exact assoc_isSome x l m h2

theorem assoc_zip {γ δ ε : Type} (f : γ → δ → ε) (x : ℕ) : ∀ (l : List (ℕ × γ)) (m : List (ℕ × δ)), l.map Prod.fst = m.map Prod.fst →
    assoc x (List.zipWith (fun r e => (e.1, f r.2 e.2)) l m) = (assoc x l).bind fun r => (assoc x m).map (f r)
  | [], [], _ => rfl
  | [], _ :: _, h => by cases h
  | _ :: _, [], h => by cases h
  | (y, v) :: l, (z, w) :: m, h => by
      rw [List.map_cons, List.map_cons, List.cons.injEq] at h
      obtain ⟨h1, h2⟩ := h
      dsimp only at h1
      subst h1
      rw [List.zipWith_cons_cons, assoc, assoc, assoc]
      split
      · rfl
      · exact assoc_zip f x l m h2

theorem look_isSome {γ δ : Type} : ∀ (R : List (List (ℕ × γ))) (F : List (List (ℕ × δ))), keysOf R = keysOf F → ∀ t : Trans,
    (look R t).isSome = (look F t).isSome
  | [], [], _, _ => rfl
  | [], _ :: _, h, _ => by cases h
  | _ :: _, [], h, _ => by cases h
  | r :: R, f :: F, h, (0, x) => by
      rw [keysOf, keysOf, List.map_cons, List.map_cons, List.cons.injEq] at h
      exact assoc_isSome x r f h.1
  | r :: R, f :: F, h, (i + 1, x) => by
      rw [keysOf, keysOf, List.map_cons, List.map_cons, List.cons.injEq] at h
      exact look_isSome R F h.2 (i, x)

theorem look_zip {γ δ ε : Type} (f : γ → δ → ε) : ∀ (R : List (List (ℕ × γ))) (F : List (List (ℕ × δ))), keysOf R = keysOf F → ∀ t : Trans,
    look (List.zipWith (fun rs fs => List.zipWith (fun r e => (e.1, f r.2 e.2)) rs fs) R F) t = (look R t).bind fun r => (look F t).map (f r)
  | [], [], _, _ => rfl
  | [], _ :: _, h, _ => by cases h
  | _ :: _, [], h, _ => by cases h
  | r :: R, g :: F, h, (0, x) => by
      rw [keysOf, keysOf, List.map_cons, List.map_cons, List.cons.injEq] at h
      exact assoc_zip f x r g h.1
  | r :: R, g :: F, h, (i + 1, x) => by
      rw [keysOf, keysOf, List.map_cons, List.map_cons, List.cons.injEq] at h
      exact look_zip f R F h.2 (i, x)

theorem keysOf_round (R : Rel) (F : Sets) (h : keysOf R = keysOf F) : keysOf (round R F) = keysOf F := by
  unfold round
  generalize hG : F = G at h ⊢
  have : ∀ (R : Rel) (G : Sets), keysOf R = keysOf G →
      keysOf (List.zipWith (fun rs fs => List.zipWith (fun (r : ℕ × List Trans) (f : ℕ × ℕ) => (f.1, f.2 ||| F.union r.2)) rs fs) R G) = keysOf G := by
    intro R G h
    induction R generalizing G with
    | nil =>
      cases G with
      | nil => rfl
      | cons g G => cases h
    | cons r R ih =>
      cases G with
      | nil => cases h
      | cons g G =>
        rw [keysOf, keysOf, List.map_cons, List.map_cons, List.cons.injEq] at h
        rw [List.zipWith_cons_cons, keysOf, keysOf, List.map_cons, List.map_cons, List.cons.injEq]
        refine ⟨?_, ih G h.2⟩
        obtain ⟨h1, _⟩ := h
        clear ih
        induction r generalizing g with
        | nil =>
          cases g with
          | nil => rfl
          | cons a g => cases h1
        | cons b r ihr =>
          cases g with
          | nil => cases h1
          | cons a g =>
            rw [List.map_cons, List.map_cons, List.cons.injEq] at h1
            rw [List.zipWith_cons_cons, List.map_cons, List.map_cons, ihr g h1.2]
  subst hG
  exact this R F h

/-- The relation of a layout. -/
def relOf (R : Rel) (t : Trans) : List Trans := (look R t).getD []

theorem get_eq (F : Sets) (t : Trans) : F.get t = (look F t).getD 0 := rfl

theorem get_round (R : Rel) (F : Sets) (h : keysOf R = keysOf F) (t : Trans) : (round R F).get t = F.get t ||| F.union (relOf R t) := by
  have h1 := look_zip (fun (r : List Trans) (f : ℕ) => f ||| F.union r) R F h t
  have h2 := look_isSome R F h t
  rw [get_eq, get_eq, relOf, round, h1]
  cases hr : look R t with
  | none =>
    rw [hr] at h2
    cases hf : look F t with
    | none => simp [Sets.union]
    | some f => rw [hf] at h2; cases h2
  | some r =>
    rw [hr] at h2
    cases hf : look F t with
    | none => rw [hf] at h2; cases h2
    | some f => rfl

theorem testBit_union (F : Sets) (a : ℕ) : ∀ l : List Trans, (F.union l).testBit a = true ↔ ∃ t ∈ l, (F.get t).testBit a = true
  | [] => by simp [Sets.union]
  | t :: l => by simp [Sets.union, testBit_union F a l]

/-- Rounds stay within the least solution. -/
theorem rounds (R : Rel) (a : ℕ) : ∀ (n : ℕ) (F : Sets), keysOf R = keysOf F → keysOf R = keysOf (digraph R n F) ∧
    (∀ t, (F.get t).testBit a = true → ((digraph R n F).get t).testBit a = true) ∧
    ∀ t, ((digraph R n F).get t).testBit a = true → ∃ z, Digraph.Reach (relOf R) t z ∧ (F.get z).testBit a = true
  | 0, F, h => ⟨h, fun _ h => h, fun t h => ⟨t, .refl, h⟩⟩
  | n + 1, F, h => by
      rw [digraph]
      split_ifs
      · exact ⟨h, fun _ h => h, fun t h => ⟨t, .refl, h⟩⟩
      · obtain ⟨h1, h2, h3⟩ := rounds R a n (round R F) (by rw [keysOf_round R F h]; exact h)
        refine ⟨h1, fun t ht => h2 t ?_, fun t ht => ?_⟩
        · rw [get_round R F h, Nat.testBit_or, ht]
          rfl
        · obtain ⟨z, hz, hb⟩ := h3 t ht
          rw [get_round R F h, Nat.testBit_or, Bool.or_eq_true, testBit_union] at hb
          rcases hb with hb | ⟨w, hw, hb⟩
          · exact ⟨z, hz, hb⟩
          · exact ⟨w, hz.tail hw, hb⟩

/-- If the rounds come to an end they give the least solution. -/
theorem rounds_full (R : Rel) (n : ℕ) (F : Sets) (h : keysOf R = keysOf F) (hfix : round R (digraph R n F) = digraph R n F) (t : Trans) (a : ℕ) :
    ((digraph R n F).get t).testBit a = true ↔ ∃ z, Digraph.Reach (relOf R) t z ∧ (F.get z).testBit a = true := by
  obtain ⟨h1, h2, h3⟩ := rounds R a n F h
  refine ⟨h3 t, ?_⟩
  rintro ⟨z, hz, hb⟩
  induction hz using ReflTransGen.head_induction_on with
  | refl => exact h2 z hb
  | head hxy _ ih =>
    rename_i x y _
    rw [← hfix, get_round _ _ h1, Nat.testBit_or, Bool.or_eq_true, testBit_union]
    exact Or.inr ⟨y, hxy, ih⟩

/-! ## The layouts -/

theorem assoc_map {γ : Type} (f : ℕ × ℕ → γ) (x : ℕ) : ∀ l : List (ℕ × ℕ),
    assoc x (l.map fun e => (e.1, f e)) = (assoc x l).map fun v => f (x, v)
  | [] => rfl
  | (y, v) :: l => by
      rw [List.map_cons, assoc, assoc]
      split
      · rename_i h
        rw [Nat.beq_eq] at h
        subst h
        rfl
      · exact assoc_map f x l


/-- The next state by a nonterminal. -/
def ntStep (C : List State) (t : Trans) : Option ℕ := assoc t.2 (ntNext (C.getD t.1 noState))

theorem numbered_getElem? (C : List State) (i : ℕ) : (numbered C)[i]? = C[i]?.map fun s => (i, s) := by
  unfold numbered
  rcases lt_or_ge i C.length with h | h
  · rw [List.getElem?_eq_getElem (by simpa using h), List.getElem?_eq_getElem h, List.getElem_zip, List.getElem_range]
    rfl
  · rw [List.getElem?_eq_none (by simpa using h), List.getElem?_eq_none h]
    rfl

theorem look_numbered {γ : Type} (C : List State) (f : ℕ → ℕ × ℕ → γ) (t : Trans) :
    look ((numbered C).map fun s => (ntNext s.2).map fun e => (e.1, f s.1 e)) t = (ntStep C t).map fun v => f t.1 (t.2, v) := by
  rw [look, ntStep, List.getD_eq_getElem?_getD, List.getElem?_map, numbered_getElem?, List.getD_eq_getElem?_getD]
  cases C[t.1]? with
  | none => rfl
  | some s => exact assoc_map (f t.1) t.2 (ntNext s)

theorem look_states {γ : Type} (C : List State) (f : ℕ × ℕ → γ) (t : Trans) :
    look (C.map fun s => (ntNext s).map fun e => (e.1, f e)) t = (ntStep C t).map fun v => f (t.2, v) := by
  rw [look, ntStep, List.getD_eq_getElem?_getD, List.getElem?_map, List.getD_eq_getElem?_getD]
  cases C[t.1]? with
  | none => rfl
  | some s => exact assoc_map f t.2 (ntNext s)

theorem numbered_snd (C : List State) : (numbered C).map Prod.snd = C := by
  unfold numbered
  exact List.map_snd_zip (by simp)

theorem keysOf_numbered {γ : Type} (C : List State) (f : ℕ → ℕ × ℕ → γ) :
    keysOf ((numbered C).map fun s => (ntNext s.2).map fun e => (e.1, f s.1 e)) = C.map fun s => (ntNext s).map Prod.fst := by
  conv_rhs => rw [← numbered_snd C]
  simp [keysOf, Function.comp_def]

theorem keysOf_states {γ : Type} (C : List State) (f : ℕ × ℕ → γ) :
    keysOf (C.map fun s => (ntNext s).map fun e => (e.1, f e)) = C.map fun s => (ntNext s).map Prod.fst := by
  simp [keysOf, Function.comp_def]

theorem assoc_filter (x : ℕ) (hx : 64 ≤ x) : ∀ l : List (ℕ × ℕ), assoc x (l.filter fun e => Nat.ble 64 e.1) = assoc x l
  | [] => rfl
  | (y, v) :: l => by
      rw [List.filter_cons]
      split_ifs with h
      · rw [assoc, assoc, assoc_filter x hx l]
      · rw [assoc, assoc_filter x hx l, if_neg]
        rw [Nat.beq_eq]
        rintro rfl
        exact h (Nat.ble_eq_true_of_le hx)

theorem assoc_key {γ : Type} {x : ℕ} {v : γ} : ∀ {l : List (ℕ × γ)}, assoc x l = some v → (x, v) ∈ l
  | [], h => by cases h
  | (y, w) :: l, h => by
      rw [assoc] at h
      split_ifs at h with he
      · rw [Nat.beq_eq] at he
        subst he
        cases h
        exact List.mem_cons_self
      · exact List.mem_cons_of_mem _ (assoc_key h)

theorem key_assoc {γ : Type} {x : ℕ} {v : γ} : ∀ {l : List (ℕ × γ)}, (x, v) ∈ l → (assoc x l).isSome = true
  | (y, w) :: l, h => by
      rw [assoc]
      split_ifs with he
      · rfl
      · rw [List.mem_cons] at h
        rcases h with h | h
        · cases h
          exact absurd (Nat.beq_refl x) he
        · exact key_assoc h

theorem ntStep_eq {C : List State} {t : Trans} {v : ℕ} (h : ntStep C t = some v) : stepOn C t.1 t.2 = some v := by
  have h1 := assoc_key h
  rw [ntNext, List.mem_filter] at h1
  have h2 : 64 ≤ t.2 := Nat.le_of_ble_eq_true h1.2
  rw [stepOn, ← assoc_filter t.2 h2]
  exact h

theorem mem_trans {C : List State} {t : Trans} : t ∈ trans C ↔ (ntStep C t).isSome = true := by
  rw [trans, List.mem_flatMap]
  constructor
  · rintro ⟨⟨i, s⟩, hs, ht⟩
    rw [List.mem_map] at ht
    obtain ⟨e, he, rfl⟩ := ht
    obtain ⟨k, hk⟩ := List.getElem?_of_mem hs
    rw [numbered_getElem?, Option.map_eq_some_iff] at hk
    obtain ⟨s', hk, hks⟩ := hk
    cases hks
    rw [ntStep, List.getD_eq_getElem?_getD, hk]
    exact key_assoc (v := e.2) he
  · intro h
    obtain ⟨v, hv⟩ := Option.isSome_iff_exists.1 h
    have hm := assoc_key hv
    rw [List.getD_eq_getElem?_getD] at hm
    cases hC : C[t.1]? with
    | none =>
      rw [hC] at hm
      exact absurd hm List.not_mem_nil
    | some s =>
      rw [hC] at hm
      refine ⟨(t.1, s), List.mem_of_getElem? (i := t.1) (by rw [numbered_getElem?, hC]; rfl), ?_⟩
      exact List.mem_map.2 ⟨(t.2, v), hm, rfl⟩

/-! ## The sets of tokens -/

theorem testBit_mask (a : ℕ) : ∀ l : List ℕ, (mask l).testBit a = true ↔ a ∈ l
  | [] => by simp [mask]
  | b :: l => by
      rw [mask, Nat.testBit_or, Bool.or_eq_true, testBit_mask a l, List.mem_cons, Nat.testBit_two_pow]
      simp [eq_comm]

theorem testBit_shiftSet (a : ℕ) : ∀ is : List Item, (shiftSet is).testBit a = true ↔ a < 64 ∧ ∃ i ∈ is, i.after.head? = some a
  | [] => by simp [shiftSet]
  | i :: is => by
      have ih := testBit_shiftSet a is
      rw [shiftSet]
      cases h : i.after with
      | nil => simp [ih, h]
      | cons x xs =>
        by_cases hx : x < 64
        · have : Nat.blt x 64 = true := by simpa [Nat.blt_eq] using hx
          simp only [this, if_true, Nat.testBit_or, Bool.or_eq_true, ih, Nat.testBit_two_pow, decide_eq_true_eq, List.mem_cons,
            exists_eq_or_imp, h, List.head?_cons, Option.some.injEq]
          constructor
          · rintro (rfl | ⟨h1, h2⟩)
            · exact ⟨hx, Or.inl rfl⟩
            · exact ⟨h1, Or.inr h2⟩
          · rintro ⟨h1, rfl | h2⟩
            · exact Or.inl rfl
            · exact Or.inr ⟨h1, h2⟩
        · have : Nat.blt x 64 = false := by
            rw [Bool.eq_false_iff, ne_eq, Nat.blt_eq]
            exact hx
          simp only [this, Bool.false_eq_true, if_false, ih, List.mem_cons, exists_eq_or_imp, h, List.head?_cons, Option.some.injEq]
          constructor
          · rintro ⟨h1, h2⟩
            exact ⟨h1, Or.inr h2⟩
          · rintro ⟨h1, rfl | h2⟩
            · exact absurd h1 hx
            · exact ⟨h1, h2⟩

theorem mem_directTerms (a : ℕ) (is : List Item) : a ∈ directTerms is ↔ a < 64 ∧ ∃ i ∈ is, i.after.head? = some a := by
  have key : ∀ (is : List Item) (terms : List ℕ), a ∈ is.foldl addTerm terms ↔
        a ∈ terms ∨ a < 64 ∧ ∃ i ∈ is, i.after.head? = some a := by
    intro is
    induction is with
    | nil => simp
    | cons i is ih =>
      intro terms
      rw [List.foldl_cons, ih, addTerm]
      simp only [List.mem_cons, exists_eq_or_imp]
      cases h : i.after with
      | nil => simp
      | cons x xs =>
        simp only [List.head?_cons, Option.some.injEq]
        by_cases hx : x < 64
        · rw [if_pos hx]
          by_cases hm : x ∈ terms
          · rw [if_pos hm]
            constructor
            · rintro (h1 | ⟨h1, h2⟩)
              · exact Or.inl h1
              · exact Or.inr ⟨h1, Or.inr h2⟩
            · rintro (h1 | ⟨h1, rfl | h2⟩)
              · exact Or.inl h1
              · exact Or.inl hm
              · exact Or.inr ⟨h1, h2⟩
          · rw [if_neg hm, List.mem_append, List.mem_singleton]
            constructor
            · rintro ((h1 | rfl) | ⟨h1, h2⟩)
              · exact Or.inl h1
              · exact Or.inr ⟨hx, Or.inl rfl⟩
              · exact Or.inr ⟨h1, Or.inr h2⟩
            · rintro (h1 | ⟨h1, rfl | h2⟩)
              · exact Or.inl (Or.inl h1)
              · exact Or.inl (Or.inr rfl)
              · exact Or.inr ⟨h1, h2⟩
        · rw [if_neg hx]
          constructor
          · rintro (h1 | ⟨h1, h2⟩)
            · exact Or.inl h1
            · exact Or.inr ⟨h1, Or.inr h2⟩
          · rintro (h1 | ⟨h1, rfl | h2⟩)
            · exact Or.inl h1
            · exact absurd h1 hx
            · exact Or.inr ⟨h1, h2⟩
  have := key is []
  simpa [directTerms] using this

theorem mem_drRelation (C : List State) (t : Trans) (ht : t ∈ trans C) (a : ℕ) :
    ((directSets C).get t).testBit a = true ↔ a ∈ drRelation C t := by
  obtain ⟨v, hv⟩ := Option.isSome_iff_exists.1 (mem_trans.1 ht)
  have hl : look (directSets C) t = some (directReads C t.1 (t.2, v)) := by
    rw [directSets, look_numbered, hv]
    rfl
  rw [get_eq, hl, Option.getD_some, drRelation, ntStep_eq hv, directReads]
  dsimp only
  by_cases hs : t = (0, ntCode .multilineCode)
  · rw [if_pos hs, if_pos (by rw [hs]; decide), Nat.testBit_or, Bool.or_eq_true, testBit_shiftSet, List.mem_append, mem_directTerms,
      List.mem_singleton, Nat.testBit_two_pow]
    simp [eq_comm]
  · rw [if_neg hs, if_neg, testBit_shiftSet, mem_directTerms]
    rw [Bool.and_eq_true, Nat.beq_eq, Nat.beq_eq]
    rintro ⟨h1, h2⟩
    exact hs (Prod.ext h1 h2)

theorem relOf_reads (C : List State) (null : ℕ) (t : Trans) (ht : t ∈ trans C) : relOf (readsRel C null) t = readsRelation C null t := by
  obtain ⟨v, hv⟩ := Option.isSome_iff_exists.1 (mem_trans.1 ht)
  rw [relOf, readsRel, look_states, hv, readsRelation, ntStep_eq hv]
  rfl

theorem relOf_includes (C : List State) (null : ℕ) (t : Trans) (ht : t ∈ trans C) :
    relOf (includeRel C (includePairs C null)) t = includeDict C null t := by
  obtain ⟨v, hv⟩ := Option.isSome_iff_exists.1 (mem_trans.1 ht)
  rw [relOf, includeRel, look_numbered C (fun i e => ((includePairs C null).filter fun q => Nat.beq q.1.1 i && Nat.beq q.1.2 e.1).map Prod.snd), hv,
    includeDict]
  simp only [Option.map_some, Option.getD_some]
  congr 1
  refine List.filter_congr fun q _ => ?_
  rw [Bool.eq_iff_iff, Bool.and_eq_true, Nat.beq_eq, Nat.beq_eq, decide_eq_true_eq, Prod.ext_iff]

theorem mem_includedBy (C : List State) (null s x : ℕ) : ∀ (is : List Item) (q : Trans × Trans), q ∈ includedBy C null s x is → q.2 = (s, x)
  | [], q, h => by cases h
  | i :: is, q, h => by
      rw [includedBy] at h
      split_ifs at h
      · rw [List.mem_append, List.mem_map] at h
        rcases h with ⟨t, _, rfl⟩ | h
        · rfl
        · exact mem_includedBy C null s x is q h
      · exact mem_includedBy C null s x is q h

theorem includes_trans (C : List State) (null : ℕ) (t y : Trans) (h : y ∈ includeDict C null t) : y ∈ trans C := by
  rw [includeDict, List.mem_map] at h
  obtain ⟨q, hq, rfl⟩ := h
  have hq := (List.mem_filter.1 hq).1
  rw [includePairs, List.mem_flatMap] at hq
  obtain ⟨s, hs, hq⟩ := hq
  rw [List.mem_flatMap] at hq
  obtain ⟨e, he, hq⟩ := hq
  rw [mem_includedBy C null s.1 e.1 s.2.items q hq, trans, List.mem_flatMap]
  exact ⟨s, hs, List.mem_map.2 ⟨e, he, rfl⟩⟩

/-- Reachability only depends on the relation where it can be used. -/
theorem reach_congr {R S : Trans → List Trans} {X : List Trans} (h : ∀ t ∈ X, R t = S t) (hR : ∀ t ∈ X, ∀ y ∈ R t, y ∈ X) {t z : Trans} (ht : t ∈ X) :
    Digraph.Reach R t z ↔ Digraph.Reach S t z ∧ z ∈ X := by
  constructor
  · intro hr
    induction hr with
    | refl => exact ⟨.refl, ht⟩
    | tail _ hyz ih =>
      rename_i y z _
      refine ⟨ih.1.tail ?_, hR y ih.2 z hyz⟩
      show z ∈ S y
      rw [← h y ih.2]
      exact hyz
  · rintro ⟨hr, -⟩
    have : Digraph.Reach R t z ∧ z ∈ X := by
      induction hr with
      | refl => exact ⟨.refl, ht⟩
      | tail _ hyz ih =>
        rename_i y z _
        have hyz' : z ∈ R y := by
          rw [h y ih.2]
          exact hyz
        exact ⟨ih.1.tail hyz', hR y ih.2 z hyz'⟩
    exact this.1

/-- Rounds and the algorithm agree. -/
theorem rounds_digraph (C : List State) (R : Rel) (n : ℕ) (F : Sets) (S : Trans → List Trans) (FP : Trans → List ℕ) (h : keysOf R = keysOf F)
    (hfix : round R (digraph R n F) = digraph R n F) (hS : ∀ t ∈ trans C, relOf R t = S t) (hF : ∀ t ∈ trans C, ∀ a, (F.get t).testBit a = true ↔ a ∈ FP t)
    (hX : ∀ t ∈ trans C, ∀ y ∈ S t, y ∈ trans C) (hlen : (trans C).length < Digraph.MAXINT) (t : Trans) (ht : t ∈ trans C) (a : ℕ) :
    ((digraph R n F).get t).testBit a = true ↔ a ∈ Digraph.digraph (trans C) S FP t := by
  rw [rounds_full R n F h hfix, Digraph.mem_digraph hX hlen t ht, Digraph.Full]
  have hX' : ∀ t ∈ trans C, ∀ y ∈ relOf R t, y ∈ trans C := fun t ht y hy => hX t ht y (by rw [← hS t ht]; exact hy)
  constructor
  · rintro ⟨z, hz, hb⟩
    rw [reach_congr hS hX' ht] at hz
    exact ⟨z, hz.1, (hF z hz.2 a).1 hb⟩
  · rintro ⟨z, hz, hb⟩
    have hz' : z ∈ trans C := ((reach_congr (fun _ _ => rfl) hX ht).1 hz).2
    exact ⟨z, (reach_congr hS hX' ht).2 ⟨hz, hz'⟩, (hF z hz' a).2 hb⟩

end PythonDice.Yacc
