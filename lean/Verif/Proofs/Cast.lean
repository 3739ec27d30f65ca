import Verif.Props.Roll
import Verif.Spec.Call

/-! The law of a call of a casting function. -/

namespace PythonDice
open Spec

/-! ## Conversion of the arguments -/

theorem fromSeq_seqDie (st : Settings) (s : List ℤ) : RV.fromSeq st s = .ok (seqDie s) := by
  by_cases hne : s = []
  · subst hne
    have e : ∀ st, RV.fromSeq st ([] : List ℤ) = .ok ⟨[0], [1], none⟩ := fun st => by
      unfold RV.fromSeq
      exact fromConst_eq st 0
    unfold seqDie
    rw [e, e]
  · obtain ⟨d, hd, hp, hc, _, hsrc, hz, hl⟩ := fromSeq_spec st s hne
    obtain ⟨d', hd', hp', hc', _, hsrc', hz', hl'⟩ := fromSeq_spec {} s hne
    have := Canonical_law_ext hc hc' hp.pos hp'.pos hz hz' fun f => by rw [hl, hl']
    unfold seqDie
    rw [hd, hd']
    congr 1
    cases d; cases d'
    simp only [RV.mk.injEq]
    exact ⟨this.1, this.2, by simp_all⟩

theorem seqDie_proper (s : List ℤ) : (seqDie s).Proper ∧ (seqDie s).Canonical ∧ (seqDie s).src = none := by
  by_cases hne : s = []
  · subst hne
    have e : seqDie [] = ⟨[0], [1], none⟩ := by
      have h := fromSeq_seqDie {} []
      have h2 : RV.fromSeq {} ([] : List ℤ) = .ok ⟨[0], [1], none⟩ := by
        unfold RV.fromSeq; exact fromConst_eq {} 0
      rw [h2] at h; cases h; rfl
    rw [e]
    exact ⟨proper_const _ _, canonical_const _ _, rfl⟩
  · obtain ⟨d, hd, hp, hc, _, hsrc, _⟩ := fromSeq_spec {} s hne
    rw [fromSeq_seqDie] at hd
    cases hd
    exact ⟨hp, hc, hsrc⟩

/-- What `castSlot` computes. -/
def slotOf : Option Ty × Obj → Slot
  | (some .N, .seq s) => .easy (.num s.sum)
  | (some .N, .rv r) => .hard (r.pairs.map fun vp => (.num vp.1, vp.2))
  | (some .S, .num n) => .easy (.seq [n])
  | (some .S, .rv r) => .hard (r.expandedRolls.map fun vp => (.seq vp.1, vp.2))
  | (some .D, .num n) => .easy (.rv ⟨[n], [1], none⟩)
  | (some .D, .seq s) => .easy (.rv (seqDie s))
  | (_, o) => .easy o

theorem castSlot_eq (a : Option Ty × Obj) (w : World) : castSlot a.1 a.2 w = (.ok (slotOf a), w) := by
  obtain ⟨t, o⟩ := a
  rcases t with _ | t
  · cases o <;> rfl
  · cases t <;> cases o <;> try rfl
    · rename_i n
      change (M.ofSettings (fun st => RV.fromConst st n) >>= fun x => pure (Slot.easy (.rv x))) w = _
      rw [M.bind_ok (x := ⟨[n], [1], none⟩) (w' := w) (by change (RV.fromConst _ n, w) = _; rw [fromConst_eq])]
      rfl
    · rename_i s
      change (M.ofSettings (fun st => RV.fromSeq st s) >>= fun x => pure (Slot.easy (.rv x))) w = _
      rw [M.bind_ok (x := seqDie s) (w' := w) (by change (RV.fromSeq _ s, w) = _; rw [fromSeq_seqDie])]
      rfl

theorem castSlots_eq (args : List (Option Ty × Obj)) (w : World) :
    M.forList (fun a : Option Ty × Obj => castSlot a.1 a.2) args w = (.ok (args.map slotOf), w) := by
  induction args with
  | nil => rfl
  | cons a as ih =>
    rw [M.forList_cons, M.bind_ok (castSlot_eq a w), M.bind_ok ih]
    rfl

/-- One call of `f` in the loop, with the weight of its combination. -/
def castStep (f : List Obj → M (Option Obj)) (c : List Obj × ℕ) : M (RV.Entry ℤ × ℕ) := do
  let v ← f c.1
  return (resultEntry v, c.2)

/-- The combination of the results. -/
def castMix (res : List (RV.Entry ℤ × ℕ)) : M (Option Obj) := do
  let r ← M.ofLimited fun st =>
    RV.fromRvs st (res.map fun x => x.1) (some (res.map fun x => (x.2 : ℤ)))
  return some (objOfRV r)

theorem castCall_eq (f : List Obj → M (Option Obj)) (args : List (Option Ty × Obj)) :
    castCall f args =
      if args.any castAborts then pure (some (.blank true))
      else if (args.map slotOf).any Slot.isHard then
        M.forList (castStep f) (combos (args.map slotOf)) >>= castMix
      else f ((combos (args.map slotOf)).headD ([], 1)).1 := by
  unfold castCall
  split
  · rfl
  · funext w
    rw [M.bind_ok (castSlots_eq args w)]
    split <;> rfl

/-! ## Laws of the combinations -/

theorem combos_cons' (s : Slot) (ss : List Slot) (g : List Obj → ℚ) :
    wsum (combos (s :: ss)) g = wsum s.choices fun o => wsum (combos ss) fun os => g (o :: os) := by
  rw [combos, wsum_flatMap, wsum]
  congr 1
  apply List.map_congr_left
  intro op _
  rw [wsum, List.map_map, ← wsum_mul_left, wsum]
  congr 1
  apply List.map_congr_left
  intro c _
  simp only [Function.comp_apply]
  push_cast
  ring

theorem combos_mass (ss : List Slot) : mass (combos ss) = (ss.map fun s => mass s.choices).prod := by
  induction ss with
  | nil => simp [combos, mass]
  | cons s ss ih =>
    rw [mass, combos_cons', List.map_cons, List.prod_cons, ← ih, ← mass, wsum_const, mul_comm]

theorem slot_mass {a : Option Ty × Obj} (h : ArgOk a) : mass (slotOf a).choices ≠ 0 := by
  have easy : ∀ o, mass (Slot.easy o).choices ≠ 0 := by intro o; simp [Slot.choices, mass]
  obtain ⟨t, o⟩ := a
  rcases t with _ | t
  · cases o <;> exact easy _
  · cases t <;> cases o <;> try exact easy _
    · rename_i r
      have := h.pos
      rw [mass, ← wsum_map r.pairs (fun v => Obj.num v) (fun _ => 1)] at this
      exact this
    · rename_i r
      have h1 := (RV.expandedRolls_Ex (r := r) (N := r.source.1) (D := r.source.2) rfl h.len h.sorted h.pos).1
      have h2 : mass (r.expandedRolls) ≠ 0 := by rw [h1]; exact pow_ne_zero _ h.pos
      rw [mass, ← wsum_map r.expandedRolls (fun v => Obj.seq v) (fun _ => 1)] at h2
      exact h2

theorem Ex_map' {α β : Type} (l : List (α × ℕ)) (k : α → β) (f : β → ℚ) :
    Ex (l.map fun x => (k x.1, x.2)) f = Ex l fun x => f (k x) := by
  rw [Ex, mass, wsum_map, wsum_map]; rfl

theorem slot_Ex {a : Option Ty × Obj} (h : ArgOk a) (g : Obj → ℚ) : Ex (slotOf a).choices g = argLaw a g := by
  have easy : ∀ o, Ex (Slot.easy o).choices g = g o := by intro o; exact Ex_singleton _ _
  obtain ⟨t, o⟩ := a
  rcases t with _ | t
  · cases o <;> exact easy _
  · cases t <;> cases o <;> try exact easy _
    · rename_i r
      exact Ex_map' r.pairs (fun v => Obj.num v) g
    · rename_i r
      have h1 := (RV.expandedRolls_Ex (r := r) (N := r.source.1) (D := r.source.2) rfl h.len h.sorted h.pos).2
      exact (Ex_map' r.expandedRolls (fun v => Obj.seq v) g).trans (h1 _)

theorem args_mass {args : List (Option Ty × Obj)} (h : ∀ a ∈ args, ArgOk a) : mass (combos (args.map slotOf)) ≠ 0 := by
  rw [combos_mass, List.map_map]
  apply List.prod_ne_zero
  intro h0
  obtain ⟨a, ha, e⟩ := List.mem_map.1 h0
  exact slot_mass (h a ha) e

theorem args_Ex {args : List (Option Ty × Obj)} (h : ∀ a ∈ args, ArgOk a) (g : List Obj → ℚ) :
    Ex (combos (args.map slotOf)) g = argsLaw args g := by
  induction args generalizing g with
  | nil => simp [combos, argsLaw, Ex_singleton]
  | cons a as ih =>
    have hm1 := slot_mass (h a List.mem_cons_self)
    have hm2 := args_mass fun b hb => h b (List.mem_cons_of_mem _ hb)
    rw [argsLaw, ← slot_Ex (h a List.mem_cons_self)]
    rw [Ex, mass, List.map_cons, combos_cons', combos_cons']
    simp only [← ih fun b hb => h b (List.mem_cons_of_mem _ hb)]
    rw [← mass, wsum_const, Ex]
    simp only [Ex, div_eq_mul_inv]
    rw [wsum_mul_right]
    rw [mul_inv]; ring

/-! ## Combining the results -/

theorem resultEntry_law {v : Option Obj} {K : (ℤ → ℚ) → ℚ} (h : resLaw v = some K) :
    (resultEntry v).isBlank = false ∧ ∀ g, (resultEntry v).law g = K g := by
  rcases v with _ | o
  · cases h
  · cases o <;> simp only [resLaw, Option.some.injEq, reduceCtorEq] at h
    all_goals subst h; exact ⟨rfl, fun g => rfl⟩

theorem resultEntry_blank {v : Option Obj} (h : resLaw v = none) : resultEntry v = .blank := by
  rcases v with _ | o
  · rfl
  · cases o <;> simp only [resLaw, reduceCtorEq] at h
    rfl

theorem resultEntry_good {v : Option Obj} (h : ResOk v) : (resultEntry v).Good := by
  rcases v with _ | o
  · trivial
  · cases o <;> try trivial
    rename_i r
    exact ⟨h.len, by have := RV.Proper.sum_pos h; omega⟩

/-- What one call contributes. -/
def StepOk (L : List Obj → Option ((ℤ → ℚ) → ℚ)) (c : List Obj × ℕ) (y : RV.Entry ℤ × ℕ) : Prop :=
  y.2 = c.2 ∧ ∃ v, y.1 = resultEntry v ∧ resLaw v = L c.1 ∧ ResOk v

theorem live_step {L : List Obj → Option ((ℤ → ℚ) → ℚ)} {C : List (List Obj × ℕ)} {ys : List (RV.Entry ℤ × ℕ)}
    (h : List.Forall₂ (StepOk L) C ys) (g : ℤ → ℚ) :
    ((RV.live (ys.map fun x => x.1) (ys.map fun x => (x.2 : ℤ))).map
      fun (ew : RV.Entry ℤ × ℤ) => (ew.2 : ℚ) * ew.1.law g).sum =
      wsum C (fun a => match L a with | some K => K g | none => 0) ∧
    ((RV.live (ys.map fun x => x.1) (ys.map fun x => (x.2 : ℤ))).map fun (ew : RV.Entry ℤ × ℤ) => (ew.2 : ℚ)).sum =
      wsum C (fun a => if (L a).isSome then 1 else 0) := by
  rw [RV.live_eq_filter _ _ (by simp)]
  induction h with
  | nil => simp
  | cons hd _ ih =>
    obtain ⟨h1, v, h2, h3, h4⟩ := hd
    rename_i c y _ _ _
    simp only [List.map_cons, List.zip_cons_cons, wsum_cons]
    cases hL : L c.1 with
    | none =>
      rw [hL] at h3
      rw [List.filter_cons_of_neg (by rw [h2, resultEntry_blank h3]; simp)]
      simp only [mul_zero, zero_add, Option.isSome_none, Bool.false_eq_true, if_false]
      exact ih
    | some K =>
      rw [hL] at h3
      obtain ⟨k1, k2⟩ := resultEntry_law h3
      rw [List.filter_cons_of_pos (by rw [h2, k1]; rfl)]
      simp only [List.map_cons, List.sum_cons, Option.isSome_some, if_true]
      rw [ih.1, ih.2, h1, h2, k2]
      exact ⟨by push_cast; rfl, by push_cast; ring⟩

theorem mixSteps0 {st : Settings} {L : List Obj → Option ((ℤ → ℚ) → ℚ)} {C : List (List Obj × ℕ)}
    {ys : List (RV.Entry ℤ × ℕ)} {x : Option (RV ℤ)} (h : List.Forall₂ (StepOk L) C ys)
    (hx : RV.fromRvs0 st (ys.map fun x => x.1) (some (ys.map fun x => (x.2 : ℤ))) = .ok x)
    (hpos : wsum C (fun a => if (L a).isSome then 1 else 0) ≠ 0) :
    ∃ r, x = some r ∧ r.Proper ∧ r.Canonical ∧ r.src = none ∧ ∀ g, Ex r.pairs g =
      wsum C (fun a => match L a with | some K => K g | none => 0) /
      wsum C (fun a => if (L a).isSome then 1 else 0) := by
  have hg : ∀ e ∈ ys.map fun x => x.1, e.Good := by
    intro e he
    obtain ⟨y, hy, rfl⟩ := List.mem_map.1 he
    clear hx hpos he
    induction h with
    | nil => cases hy
    | cons hd _ ih =>
      rcases List.mem_cons.1 hy with rfl | hy
      · obtain ⟨_, v, h2, _, h4⟩ := hd
        rw [h2]; exact resultEntry_good h4
      · exact ih hy
  have hws : ((some (ys.map fun x => (x.2 : ℤ))).getD (List.replicate (ys.map fun x => x.1).length 1)) =
      ys.map fun x => (x.2 : ℤ) := rfl
  cases x with
  | none =>
    exfalso
    have hb := (RV.fromRvs0_blank _ _ _).1 hx
    apply hpos
    rw [← (live_step h fun _ => 0).2, RV.live_eq_filter _ _ (by simp), List.filter_eq_nil_iff.2]
    · simp
    · intro ew hew
      rw [hb _ (List.of_mem_zip hew).1]; simp
  | some r =>
    have hs : ((RV.live (ys.map fun x => x.1) ((some (ys.map fun x => (x.2 : ℤ))).getD
        (List.replicate (ys.map fun x => x.1).length 1))).map fun (ew : RV.Entry ℤ × ℤ) => (ew.2 : ℚ)).sum ≠ 0 := by
      rw [hws, (live_step h fun _ => 0).2]; exact hpos
    obtain ⟨hm, law⟩ := RV.fromRvs0_Ex hx hg hs
    have hc : r.Canonical ∧ r.src = none := by
      obtain ⟨_, _, hr0⟩ := RV.fromRvs0_canonical hx
      exact ⟨RV.mk'_canonical hr0, mk'_src hr0⟩
    refine ⟨r, rfl, hc.1.proper hm, hc.1, hc.2, fun g => ?_⟩
    rw [law g]
    have ht : (fun v : ℤ => g (RV.truncFn st v)) = g := by
      funext v; rw [truncFn_of st (fun _ _ => rfl)]
    rw [ht, hws, (live_step h g).1, (live_step h g).2]

theorem mixSteps {st : Settings} {L : List Obj → Option ((ℤ → ℚ) → ℚ)} {C : List (List Obj × ℕ)}
    {ys : List (RV.Entry ℤ × ℕ)} {x : Option (RV ℤ)} (h : List.Forall₂ (StepOk L) C ys)
    (hx : RV.fromRvs st (ys.map fun x => x.1) (some (ys.map fun x => (x.2 : ℤ))) = .ok (x, false))
    (hpos : wsum C (fun a => if (L a).isSome then 1 else 0) ≠ 0) :
    ∃ r, x = some r ∧ r.Proper ∧ r.Canonical ∧ r.src = none ∧ ∀ g, Ex r.pairs g =
      wsum C (fun a => match L a with | some K => K g | none => 0) /
      wsum C (fun a => if (L a).isSome then 1 else 0) :=
  mixSteps0 h (RV.fromRvs0_of hx) hpos

theorem wsum_eq_Ex {α : Type} {l : List (α × ℕ)} (h : mass l ≠ 0) (f : α → ℚ) : wsum l f = mass l * Ex l f := by
  rw [Ex, mul_div_cancel₀ _ h]

/-! ## The law of a call -/

theorem triple_castMix {I : Settings → Prop} (res : List (RV.Entry ℤ × ℕ)) : Triple I (castMix res) fun _ => True :=
  Triple.bind' (Triple.ofLimited fun _ _ _ _ => True.intro) fun _ => Triple.pure True.intro

/-- The value of the single combination when there is no hard parameter. -/
theorem combos_easy {ss : List Slot} (h : ss.any Slot.isHard = false) : ∃ a, combos ss = [(a, 1)] := by
  induction ss with
  | nil => exact ⟨[], rfl⟩
  | cons s ss ih =>
    simp only [List.any_cons, Bool.or_eq_false_iff] at h
    obtain ⟨a, ha⟩ := ih h.2
    cases s with
    | hard cs => simp [Slot.isHard] at h
    | easy o => exact ⟨o :: a, by simp [combos, Slot.choices, ha]⟩

/-- The law of a call: the law of the result over independent arguments, given that the result is not blank. -/
theorem triple_castCall {I : Settings → Prop} {f : List Obj → M (Option Obj)} {args : List (Option Ty × Obj)}
    {L : List Obj → Option ((ℤ → ℚ) → ℚ)} (hab : ∀ a ∈ args, castAborts a = false) (hargs : ∀ a ∈ args, ArgOk a)
    (hf : ∀ c ∈ combos (args.map slotOf), Triple I (f c.1) fun v => resLaw v = L c.1 ∧ ResOk v)
    (hpos : resultProb args L ≠ 0) :
    Triple I (castCall f args) fun v => ResOk v ∧
      resLaw v = some fun g => resultMass args L g / resultProb args L := by
  rw [castCall_eq, if_neg (by simpa using hab)]
  split
  · rename_i hh
    have hT : ∀ c ∈ combos (args.map slotOf), Triple I (castStep f c) (StepOk L c) := by
      intro c hc
      exact Triple.bind (hf c hc) (fun v hv => Triple.pure ⟨rfl, v, rfl, hv.1, hv.2⟩) fun v => Triple.pure True.intro
    refine Triple.bind (Triple.forList hT) (fun ys hys => ?_) fun ys => triple_castMix ys
    unfold castMix
    have hm := args_mass hargs
    have hp : wsum (combos (args.map slotOf)) (fun a => if (L a).isSome then 1 else 0) ≠ 0 := by
      rw [wsum_eq_Ex hm, args_Ex hargs]
      exact mul_ne_zero hm hpos
    refine Triple.bind (P := fun x => ∃ r, x = some r ∧ r.Proper ∧ ∀ g, Ex r.pairs g =
      resultMass args L g / resultProb args L) (Triple.ofLimited ?_) (fun x hx => ?_) fun x => Triple.pure True.intro
    · intro st x _ hx
      obtain ⟨r, h1, h2, _, _, h5⟩ := mixSteps hys hx hp
      refine ⟨r, h1, h2, fun g => ?_⟩
      rw [h5, wsum_eq_Ex hm, wsum_eq_Ex hm, args_Ex hargs, args_Ex hargs]
      exact mul_div_mul_left _ _ hm
    · obtain ⟨r, rfl, hr, hl⟩ := hx
      refine Triple.pure ⟨hr, ?_⟩
      simp only [objOfRV, resLaw, Option.some.injEq]
      funext g; exact hl g
  · rename_i hh
    obtain ⟨a, ha⟩ := combos_easy (Bool.eq_false_iff.2 hh)
    have hEx : ∀ g, argsLaw args g = g a := fun g => by rw [← args_Ex hargs, ha, Ex_singleton]
    have := hf (a, 1) (by rw [ha]; simp)
    rw [ha]
    refine Triple.mono this fun v hv => ⟨hv.2, ?_⟩
    simp only at hv
    unfold resultProb at hpos ⊢
    unfold resultMass
    simp only [hEx] at hpos ⊢
    rw [hv.1]
    cases hL : L a with
    | none => rw [hL] at hpos; simp at hpos
    | some K => simp

theorem isHard_of_random {args : List (Option Ty × Obj)} (hran : ∃ a ∈ args, IsRandom a) :
    (args.map slotOf).any Slot.isHard = true := by
  obtain ⟨⟨ty, o⟩, ha, hr⟩ := hran
  rw [List.any_eq_true]
  refine ⟨_, List.mem_map.2 ⟨_, ha, rfl⟩, ?_⟩
  rcases ty with _ | ty
  · exact absurd hr id
  · cases ty <;> cases o <;> first | rfl | exact absurd hr id

/-- With a random argument the result is a die. -/
theorem triple_castCall_rv {I : Settings → Prop} {f : List Obj → M (Option Obj)} {args : List (Option Ty × Obj)}
    {L : List Obj → Option ((ℤ → ℚ) → ℚ)} (hab : ∀ a ∈ args, castAborts a = false) (hargs : ∀ a ∈ args, ArgOk a)
    (hran : ∃ a ∈ args, IsRandom a)
    (hf : ∀ c ∈ combos (args.map slotOf), Triple I (f c.1) fun v => resLaw v = L c.1 ∧ ResOk v)
    (hpos : resultProb args L ≠ 0) :
    Triple I (castCall f args) fun v => ∃ q, v = some (.rv q) ∧ q.Proper ∧
      ∀ g, Ex q.pairs g = resultMass args L g / resultProb args L := by
  have T1 := triple_castCall hab hargs hf hpos
  have T2 : Triple I (castCall f args) fun v => ∃ x, v = some (objOfRV x) := by
    rw [castCall_eq, if_neg (by simpa using hab), if_pos (isHard_of_random hran)]
    refine Triple.bind' (Triple.trivial' (Triple.forList (P := fun _ _ => True) fun c hc => ?_)) fun ys => ?_
    · exact Triple.bind' (hf c hc).trivial' fun v => Triple.pure True.intro
    · exact Triple.bind' (Triple.ofLimited fun _ _ _ _ => True.intro) fun x => Triple.pure ⟨x, rfl⟩
  refine Triple.mono (T1.and T2) ?_
  rintro v ⟨⟨h1, h2⟩, x, rfl⟩
  cases x with
  | none => simp [objOfRV, resLaw] at h2
  | some q =>
    refine ⟨q, rfl, h1, fun g => ?_⟩
    simp only [objOfRV, resLaw, Option.some.injEq] at h2
    rw [h2]

/-- The same when the function never returns a blank. -/
theorem triple_castCall_total {I : Settings → Prop} {f : List Obj → M (Option Obj)} {args : List (Option Ty × Obj)}
    {K : List Obj → (ℤ → ℚ) → ℚ} (hab : ∀ a ∈ args, castAborts a = false) (hargs : ∀ a ∈ args, ArgOk a)
    (hran : ∃ a ∈ args, IsRandom a)
    (hf : ∀ c ∈ combos (args.map slotOf), Triple I (f c.1) fun v => resLaw v = some (K c.1) ∧ ResOk v) :
    Triple I (castCall f args) fun v => ∃ q, v = some (.rv q) ∧ q.Proper ∧
      ∀ g, Ex q.pairs g = argsLaw args fun c => K c g := by
  have h1 : resultProb args (fun c => some (K c)) = 1 := by
    simp only [resultProb, Option.isSome_some, if_true]
    rw [← args_Ex hargs, Ex_const (args_mass hargs)]
  refine Triple.mono (triple_castCall_rv (L := fun c => some (K c)) hab hargs hran hf (by rw [h1]; exact one_ne_zero)) ?_
  rintro v ⟨q, rfl, hq, hl⟩
  refine ⟨q, rfl, hq, fun g => ?_⟩
  rw [hl, h1]
  simp [resultMass]

/-- A call does nothing worse than the function does. -/
theorem tame_castCall {I : Settings → Prop} {f : List Obj → M (Option Obj)} (hf : ∀ a, Triple I (f a) fun _ => True)
    (args : List (Option Ty × Obj)) : Triple I (castCall f args) fun _ => True := by
  rw [castCall_eq]
  split
  · exact Triple.pure True.intro
  · split
    · exact Triple.bind' (Triple.trivial' (Triple.forList (P := fun _ _ => True) fun c _ =>
        Triple.bind' (hf c.1) fun v => Triple.pure True.intro)) triple_castMix
    · exact hf _

end PythonDice
