import Verif.Proofs.LalrActions

/-!
# The lookahead sets of the grammar
-/

namespace PythonDice.Yacc

set_option maxRecDepth 100000 in
theorem includes_data : round (includeRel gStates (includePairs gStates gNullable)) followData = followData := by decide +kernel

theorem includes_fix : round (includeRel gStates (includePairs gStates gNullable)) (followSets gStates gNullable) = followSets gStates gNullable := by
  rw [follow_eq]
  exact includes_data

theorem reads_nil (t : Trans) (ht : t ∈ trans gStates) : readsRelation gStates gNullable t = [] := by
  rw [← relOf_reads gStates gNullable t ht, relOf]
  cases h : look (readsRel gStates gNullable) t with
  | none => rfl
  | some r =>
    have h1 := noReads_grammar
    rw [noReads, List.all_eq_true] at h1
    rw [look, List.getD_eq_getElem?_getD] at h
    cases hr : (readsRel gStates gNullable)[t.1]? with
    | none =>
      rw [hr] at h
      cases h
    | some row =>
      rw [hr] at h
      have h2 := List.all_eq_true.1 (h1 row (List.mem_of_getElem? hr)) _ (assoc_key h)
      simpa using h2

theorem round_reads (F : Sets) (h : keysOf (readsRel gStates gNullable) = keysOf F) :
    round (readsRel gStates gNullable) F = F := by
  have h1 := noReads_grammar
  rw [noReads] at h1
  unfold round
  generalize readsRel gStates gNullable = R at h h1
  have key : ∀ (R : Rel) (G : Sets), keysOf R = keysOf G → (R.all fun r => r.all fun e => e.2.isEmpty) = true →
      List.zipWith (fun rs fs => List.zipWith (fun (r : ℕ × List Trans) (f : ℕ × ℕ) => (f.1, f.2 ||| F.union r.2)) rs fs) R G = G := by
    intro R G h h1
    induction R generalizing G with
    | nil =>
      cases G with
      | nil => rfl
      | cons g G => cases h
    | cons r R ih =>
      cases G with
      | nil => cases h
      | cons g G =>
        rw [keysOf, keysOf, List.map_cons, List.map_cons, List.cons.injEq] at h
        rw [List.all_cons, Bool.and_eq_true] at h1
        rw [List.zipWith_cons_cons, ih G h.2 h1.2]
        congr 1
        obtain ⟨h, _⟩ := h
        obtain ⟨h1, _⟩ := h1
        clear ih
        induction r generalizing g with
        | nil =>
          cases g with
          | nil => rfl
          | cons a g => cases h
        | cons b r ihr =>
          cases g with
          | nil => cases h
          | cons a g =>
            rw [List.map_cons, List.map_cons, List.cons.injEq] at h
            rw [List.all_cons, Bool.and_eq_true, List.isEmpty_iff] at h1
            rw [List.zipWith_cons_cons, ihr g h.2 h1.2, h1.1, Sets.union, Nat.or_zero]
  exact key R F h h1

theorem keysOf_direct (C : List State) (null : ℕ) : keysOf (readsRel C null) = keysOf (directSets C) := by
  rw [readsRel, keysOf_states C fun e => (nullableAfter null (C.getD e.2 noState).items).map fun x => (e.2, x), directSets, keysOf_numbered]

theorem keysOf_includes (C : List State) (pairs : List (Trans × Trans)) : keysOf (includeRel C pairs) = keysOf (directSets C) := by
  rw [includeRel, keysOf_numbered C fun i e => (pairs.filter fun q => Nat.beq q.1.1 i && Nat.beq q.1.2 e.1).map Prod.snd, directSets, keysOf_numbered]

theorem readSets_eq : readSets gStates gNullable = directSets gStates := by
  rw [readSets]
  show digraph _ (199 + 1) _ = _
  rw [digraph, if_pos (round_reads _ (keysOf_direct _ _))]

theorem trans_lt : (trans gStates).length < Digraph.MAXINT := by
  rw [trans_length]
  decide

/-- The read sets. -/
theorem mem_computeReadSets (t : Trans) (ht : t ∈ trans gStates) (a : ℕ) :
    ((readSets gStates gNullable).get t).testBit a = true ↔ a ∈ computeReadSets gStates gNullable t := by
  refine rounds_digraph gStates (readsRel gStates gNullable) 200 (directSets gStates) (readsRelation gStates gNullable) (drRelation gStates)
    (keysOf_direct _ _) ?_ (relOf_reads gStates gNullable) (mem_drRelation gStates) (fun t ht y hy => ?_) trans_lt t ht a
  · have := readSets_eq
    rw [readSets] at this
    rw [this]
    exact round_reads _ (keysOf_direct _ _)
  · rw [reads_nil t ht] at hy
    cases hy

/-- The follow sets. -/
theorem mem_computeFollowSets (t : Trans) (ht : t ∈ trans gStates) (a : ℕ) :
    ((followSets gStates gNullable).get t).testBit a = true ↔ a ∈ computeFollowSets gStates gNullable t := by
  refine rounds_digraph gStates (includeRel gStates (includePairs gStates gNullable)) 200 (readSets gStates gNullable) (includeDict gStates gNullable)
    (computeReadSets gStates gNullable) ?_ includes_fix (relOf_includes gStates gNullable) mem_computeReadSets
    (fun t _ y hy => includes_trans _ _ t y hy) trans_lt t ht a
  rw [readSets_eq, keysOf_includes]

theorem keysOf_digraph (R : Rel) (n : ℕ) (F : Sets) (h : keysOf R = keysOf F) : keysOf (digraph R n F) = keysOf F :=
  ((rounds R 0 n F h).1).symm.trans h

theorem get_layout (t : Trans) : (layout gStates (computeFollowSets gStates gNullable)).get t = (followSets gStates gNullable).get t := by
  by_cases ht : t ∈ trans gStates
  · have hl : look (layout gStates (computeFollowSets gStates gNullable)) t = some (mask (computeFollowSets gStates gNullable t)) := by
      obtain ⟨v, hv⟩ := Option.isSome_iff_exists.1 (mem_trans.1 ht)
      rw [layout, look_numbered gStates fun i e => mask (computeFollowSets gStates gNullable (i, e.1)), hv]
      rfl
    rw [get_eq, hl, Option.getD_some]
    refine Nat.eq_of_testBit_eq fun a => ?_
    rw [Bool.eq_iff_iff, testBit_mask, mem_computeFollowSets t ht]
  · have hn : ntStep gStates t = none := by
      rw [mem_trans, Option.isSome_iff_ne_none, not_not] at ht
      exact ht
    have h1 : look (layout gStates (computeFollowSets gStates gNullable)) t = none := by
      rw [layout, look_numbered gStates fun i e => mask (computeFollowSets gStates gNullable (i, e.1)), hn]
      rfl
    have h2 : look (followSets gStates gNullable) t = none := by
      have h3 : keysOf (followSets gStates gNullable) = keysOf (directSets gStates) := by
        rw [followSets, keysOf_digraph _ _ _ (by rw [readSets_eq, keysOf_includes]), readSets_eq]
      have h4 := look_isSome _ _ h3 t
      rw [directSets, look_numbered, hn] at h4
      simpa using h4
    rw [get_eq, get_eq, h1, h2]

theorem union_congr {F G : Sets} (h : ∀ t, F.get t = G.get t) : ∀ l : List Trans, F.union l = G.union l
  | [] => rfl
  | t :: l => by rw [Sets.union, Sets.union, h, union_congr h l]

theorem tablesFrom_congr {F G : Sets} (h : ∀ t, F.get t = G.get t) (precs : List (ℕ × Prec)) (C : List State) (back : List (Trans × Trans)) :
    tablesFrom precs C F back = tablesFrom precs C G back := by
  have hw : ∀ s, withLookahead F back s = withLookahead G back s := fun s => by
    funext i
    rw [withLookahead, withLookahead, lookahead, lookahead, union_congr h]
  rw [tablesFrom, tablesFrom]
  simp only [hw]

/-- The tables of PLY. -/
theorem plyBuild_eq : plyBuild precedence rules 200 = tablesFrom (columns precedence) gStates (followSets gStates gNullable) (lookback gStates gNullable) :=
  tablesFrom_congr get_layout _ _ _

end PythonDice.Yacc
