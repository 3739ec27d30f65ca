import Verif.Proofs.Cast

/-!
# Properties of argument casting: C14, C15, C16
-/

namespace PythonDice
open Spec

/-! ## C14 -/

/-- The sequences offered for a pool of `n` dice with the given faces, as specified by the property: every multiset of `n`
faces once, in descending order. -/
def IsPoolEnumeration (n : ℕ) (faces : List ℤ) (l : List (List ℤ)) : Prop :=
  l.Nodup ∧ ∀ xs, xs ∈ l ↔ xs.length = n ∧ xs.Pairwise (· ≥ ·) ∧ ∀ x ∈ xs, x ∈ faces

theorem combosWR_complete {pool : List ℤ} (hp : pool.Pairwise (· > ·)) (n : ℕ) (l : List ℤ) (h1 : l.length = n)
    (h2 : l.Pairwise (· ≥ ·)) (h3 : ∀ x ∈ l, x ∈ pool) : l ∈ RV.combosWithReplacement pool n := by
  induction n generalizing pool l with
  | zero => rw [Pool.combos_zero]; simpa using h1
  | succ n ihn =>
    cases l with
    | nil => simp at h1
    | cons a l =>
      induction pool with
      | nil => exact absurd (h3 a List.mem_cons_self) (by simp)
      | cons x xs ihx =>
        rw [Pool.combos_cons, List.mem_append]
        rw [List.pairwise_cons] at hp h2
        by_cases hax : a = x
        · subst hax
          left
          exact List.mem_map.2 ⟨l, ihn (List.pairwise_cons.2 hp) l (by simpa using h1) h2.2
            (fun y hy => h3 y (List.mem_cons_of_mem _ hy)), rfl⟩
        · right
          have hax' : a ∈ xs := by
            rcases List.mem_cons.1 (h3 a List.mem_cons_self) with h | h
            · exact absurd h hax
            · exact h
          have hlt := hp.1 a hax'
          refine ihx hp.2 fun y hy => ?_
          rcases List.mem_cons.1 (h3 y hy) with h | h
          · rcases List.mem_cons.1 hy with h' | h'
            · exact absurd (h' ▸ h) hax
            · have := h2.1 y h'
              omega
          · exact h

theorem combosWR_nodup {pool : List ℤ} (hp : pool.Pairwise (· > ·)) (n : ℕ) : (RV.combosWithReplacement pool n).Nodup := by
  induction n generalizing pool with
  | zero => rw [Pool.combos_zero]; simp
  | succ n ihn =>
    induction pool with
    | nil => rw [Pool.combos_nil]; simp
    | cons x xs ihx =>
      rw [Pool.combos_cons, List.nodup_append]
      have hxs := (List.pairwise_cons.1 hp).2
      refine ⟨(ihn hp).map (fun a b h => by simpa using h), ihx hxs, ?_⟩
      intro a ha b hb hab
      subst hab
      obtain ⟨l, _, rfl⟩ := List.mem_map.1 ha
      have := (Pool.combos_mem hb).2 x List.mem_cons_self
      have := (List.pairwise_cons.1 hp).1 x this
      omega

/-- C14. The sequences enumerated for the pool `roll(n, X)`: every multiset of `n` faces exactly once, in descending order. -/
theorem C14_enumeration (r X : RV ℤ) (n : ℕ) (hsrc : r.source = (n, X)) (hX : X.Proper) :
    IsPoolEnumeration n X.vals (r.expandedRolls.map (·.1)) := by
  unfold RV.expandedRolls
  rw [hsrc]
  simp only
  split
  · rename_i h1
    subst h1
    rw [List.map_fst_zip (by simp [hX.len])]
    refine ⟨?_, fun xs => ?_⟩
    · have hnd : X.vals.Nodup := List.Pairwise.imp (fun h => ne_of_lt h) hX.sorted
      exact hnd.map (fun a b h => by simpa using h)
    · constructor
      · intro h
        obtain ⟨v, hv, rfl⟩ := List.mem_map.1 h
        simp [hv]
      · rintro ⟨h1, _, h3⟩
        obtain ⟨v, rfl⟩ := List.length_eq_one_iff.1 h1
        exact List.mem_map.2 ⟨v, h3 v (by simp), rfl⟩
  · have hp : X.vals.reverse.Pairwise (· > ·) := by rw [List.pairwise_reverse]; exact hX.sorted
    rw [List.map_map]
    have e : (RV.combosWithReplacement X.vals.reverse n).map
        ((fun x : List ℤ × ℕ => x.1) ∘ fun roll => (roll, RV.factorial n / (RV.rollWeight (X.vals.zip X.probs) roll [] 1 1).2 *
          (RV.rollWeight (X.vals.zip X.probs) roll [] 1 1).1)) = RV.combosWithReplacement X.vals.reverse n :=
      (List.map_congr_left fun a _ => rfl).trans (List.map_id _)
    refine ⟨by rw [e]; exact combosWR_nodup hp n, fun xs => ?_⟩
    rw [e]
    constructor
    · intro h
      obtain ⟨h1, h2⟩ := Pool.combos_mem h
      exact ⟨h1, Pool.combos_sorted hp h, fun x hx => by simpa using h2 x hx⟩
    · rintro ⟨h1, h2, h3⟩
      exact combosWR_complete hp n xs h1 h2 fun x hx => by simpa using h3 x hx

/-- The pool an object stands for. -/
theorem roll_source {I : Settings → Prop} (n : ℤ) (X : RV ℤ) (hX : X.Proper) (hn : 2 ≤ n ∨ (n = 1 ∧ X.src = none)) :
    Triple I (roll (.num n) (.rv X)) fun o => ∃ r, o = .rv r ∧ RollIntOk n X r ∧ r.source.1 = n.natAbs ∧
      r.source.2.vals = X.vals ∧ r.source.2.probs = X.probs := by
  rw [roll_num_rv]
  rcases hn with hn | ⟨rfl, hsrc⟩
  · refine Triple.map (triple_rollInt n X hX) fun r hr => ⟨r, rfl, hr, ?_⟩
    rw [RV.source, hr.src hn]
    exact ⟨rfl, rfl, rfl⟩
  · have e : rollInt 1 X = pure X := rfl
    rw [e]
    refine Triple.map (P := fun r => r = X) (Triple.pure rfl) fun r hr => ?_
    subst hr
    refine ⟨r, rfl, ?_, ?_⟩
    · have := RollOk.mk_one hX
      exact ⟨hX, fun f => by simp [ExN_one], by simp, fun h => absurd rfl h, by omega, id, fun _ => ⟨rfl, rfl⟩, by omega⟩
    · rw [RV.source, hsrc]; exact ⟨rfl, rfl, rfl⟩

/-- C14. Passing `roll(n, X)` to a sequence parameter of a function computing `φ`: the result is the law of `φ` of `n`
independent draws of `X`, sorted in descending order. -/
theorem C14_pool_call {w w' : World} (hw : Reachable w) (n : ℤ) (X : RV ℤ) (hX : X.Proper)
    (hn : 2 ≤ n ∨ (n = 1 ∧ X.src = none)) (φ : List ℤ → ℤ) (f : List Obj → M (Option Obj))
    (hf : ∀ s, f [.seq s] = pure (some (.num (φ s)))) {o : Option Obj}
    (h : (do let p ← roll (.num n) (.rv X); castCall f [(some .S, p)]) w = (.ok o, w')) (h0 : w'.warns = 0) :
    ∃ r, o = some (.rv r) ∧ mass r.pairs ≠ 0 ∧
      ∀ g, Ex r.pairs g = ExN n.natAbs X.pairs fun xs => g (φ (descending xs)) := by
  rw [M.bind_ok_iff] at h
  obtain ⟨p, w1, h1, h2⟩ := h
  have T := roll_source (I := fun _ => True) n X hX hn
  have hw1 : Reachable w1 := by have := (T w hw trivial).1; rwa [h1] at this
  have hcast : ∀ p : Obj, (∃ r, p = .rv r) → Triple (fun _ => True) (castCall f [(some .S, p)]) fun _ => True := by
    rintro p ⟨r, rfl⟩
    rw [castCall_eq, if_neg (by simp [castAborts])]
    rw [if_pos (by simp [slotOf, Slot.isHard])]
    refine Triple.bind' (Triple.trivial' (Triple.forList (P := fun _ _ => True) fun c hc => ?_)) triple_castMix
    obtain ⟨s, hs⟩ : ∃ s, c.1 = [.seq s] := by
      simp only [List.map_cons, List.map_nil, slotOf, combos, Slot.choices, List.mem_flatMap, List.mem_map,
        List.mem_singleton] at hc
      obtain ⟨_, ⟨x, _, rfl⟩, _, rfl, rfl⟩ := hc
      exact ⟨x.1, rfl⟩
    unfold castStep
    rw [hs, hf]
    exact Triple.pure True.intro
  obtain ⟨r0, rfl⟩ : ∃ r, p = .rv r := by
    rw [roll_num_rv, M.map_ok_iff] at h1
    obtain ⟨r, _, rfl⟩ := h1; exact ⟨r, rfl⟩
  have hle : w1.warns ≤ w'.warns := by have := (hcast (.rv r0) ⟨_, rfl⟩ w1 hw1 trivial).2.1; rwa [h2] at this
  obtain ⟨r, hr, hok, s1, s2, s3⟩ := T.run hw trivial h1 (by omega)
  cases hr
  have hpairs : r0.source.2.pairs = X.pairs := by rw [RV.pairs, RV.pairs, s2, s3]
  have hsp : r0.source.2.Proper := RV.Proper.congr s2.symm s3.symm hX
  have T2 := triple_castCall (I := fun _ => True) (f := f) (args := [(some .S, .rv r0)])
    (L := fun a => match a with
      | [.seq s] => some fun g => g (φ s)
      | _ => none)
    (by simp [castAborts]) (by simpa [ArgOk] using hsp)
    (fun c hc => by
      simp only [List.map_cons, List.map_nil, slotOf, combos, Slot.choices, List.mem_flatMap, List.mem_map,
        List.mem_singleton] at hc
      obtain ⟨_, ⟨x, _, rfl⟩, _, rfl, rfl⟩ := hc
      simp only [hf]
      exact Triple.pure ⟨rfl, trivial⟩)
    (by simp [resultProb, argsLaw, argLaw, ExN_const hsp.pos])
  obtain ⟨hro, hrl⟩ := T2.run hw1 trivial h2 h0
  have hform : ∃ x, o = some (objOfRV x) := by
    rw [castCall_eq, if_neg (by simp [castAborts]), if_pos (by simp [slotOf, Slot.isHard]), M.bind_ok_iff] at h2
    obtain ⟨ys, _, _, h2⟩ := h2
    unfold castMix at h2
    rw [M.bind_ok_iff] at h2
    obtain ⟨x, _, _, h2⟩ := h2
    cases h2
    exact ⟨x, rfl⟩
  obtain ⟨x, rfl⟩ := hform
  cases x with
  | none => simp [objOfRV, resLaw] at hrl
  | some r =>
    refine ⟨r, rfl, hro.pos, fun g => ?_⟩
    simp only [objOfRV, resLaw, Option.some.injEq] at hrl
    rw [hrl]
    simp only [resultProb, resultMass, argsLaw, argLaw, Option.isSome_some, if_true, s1, hpairs]
    rw [ExN_const hX.pos, div_one]

/-- a user function: the sum of the two highest dice. -/
def topTwo : List Obj → M (Option Obj)
  | [.seq s] => pure (some (.num (s.getD 0 0 + s.getD 1 0)))
  | _ => M.throw .type

example : ((do let p ← roll (.num 3) (.rv ⟨[1, 2], [1, 1], none⟩); castCall topTwo [(some .S, p)]) {}).1 =
    .ok (some (.rv ⟨[2, 3, 4], [1, 3, 4], none⟩)) := by decide +kernel

/-! ## C15 -/

/-- The calls a cast call makes: all combinations, the last argument varying fastest. -/
def cartesian {α : Type} : List (List α) → List (List α)
  | [] => [[]]
  | xs :: xss => xs.flatMap fun x => (cartesian xss).map fun ys => x :: ys

/-- The value of an argument that is not a die standing for a number or a sequence. -/
def argValue : Option Ty × Obj → Obj
  | (some .N, .seq s) => .num s.sum
  | (some .S, .num n) => .seq [n]
  | (some .D, .num n) => .rv ⟨[n], [1], none⟩
  | (some .D, .seq s) => .rv (seqDie s)
  | (_, o) => o

/-- `l` lists the values of an argument in the order they are tried: the outcomes of a die in increasing order for a number;
for a sequence the sorted rolls of its pool, those of several dice in decreasing lexicographic order. -/
def ArgValues (a : Option Ty × Obj) (l : List Obj) : Prop :=
  match a with
  | (some .N, .rv r) => l = r.vals.map .num
  | (some .S, .rv r) => ∃ e, l = e.map .seq ∧ IsPoolEnumeration r.source.1 r.source.2.vals e ∧
      if r.source.1 = 1 then e = r.source.2.vals.map fun v => [v] else e.Pairwise (· > ·)
  | a => l = [argValue a]

theorem combosWR_lex {pool : List ℤ} (hp : pool.Pairwise (· > ·)) (n : ℕ) :
    (RV.combosWithReplacement pool n).Pairwise (· > ·) := by
  induction n generalizing pool with
  | zero => rw [Pool.combos_zero]; simp
  | succ n ihn =>
    induction pool with
    | nil => rw [Pool.combos_nil]; simp
    | cons x xs ihx =>
      rw [Pool.combos_cons, List.pairwise_append]
      refine ⟨?_, ihx (List.pairwise_cons.1 hp).2, ?_⟩
      · rw [List.pairwise_map]
        exact (ihn hp).imp fun h => List.Lex.cons h
      · intro a ha b hb
        obtain ⟨l, _, rfl⟩ := List.mem_map.1 ha
        obtain ⟨h1, h2⟩ := Pool.combos_mem hb
        cases b with
        | nil => simp at h1
        | cons y b =>
          exact List.Lex.rel ((List.pairwise_cons.1 hp).1 y (h2 y List.mem_cons_self))

theorem expandedRolls_order (r : RV ℤ) (hX : r.source.2.Proper) :
    if r.source.1 = 1 then r.expandedRolls.map (·.1) = r.source.2.vals.map (fun v => [v])
    else (r.expandedRolls.map (·.1)).Pairwise (· > ·) := by
  unfold RV.expandedRolls
  cases hs : r.source with
  | mk n X =>
    rw [hs] at hX
    simp only
    split
    · rw [List.map_fst_zip (by simp [hX.len])]
    · rw [List.map_map]
      have hp : X.vals.reverse.Pairwise (· > ·) := by rw [List.pairwise_reverse]; exact hX.sorted
      have e : (RV.combosWithReplacement X.vals.reverse n).map
          ((fun x : List ℤ × ℕ => x.1) ∘ fun roll => (roll, RV.factorial n / (RV.rollWeight (X.vals.zip X.probs) roll [] 1 1).2 *
            (RV.rollWeight (X.vals.zip X.probs) roll [] 1 1).1)) = RV.combosWithReplacement X.vals.reverse n :=
        (List.map_congr_left fun a _ => rfl).trans (List.map_id _)
      rw [e]; exact combosWR_lex hp n

theorem argValues_slot {a : Option Ty × Obj} (h : ArgOk a) : ArgValues a ((slotOf a).choices.map (·.1)) := by
  obtain ⟨ty, o⟩ := a
  rcases ty with _ | ty
  · rfl
  · cases ty <;> cases o <;> try rfl
    · rename_i r
      change List.map _ (List.map _ r.pairs) = _
      rw [List.map_map, RV.pairs]
      have hl : r.probs.length = r.vals.length := (show r.Proper from h).len.symm
      rw [show ((fun x : Obj × ℕ => x.1) ∘ fun vp : ℤ × ℕ => (Obj.num vp.1, vp.2)) = Obj.num ∘ Prod.fst from rfl,
        ← List.map_map, List.map_fst_zip (by omega)]
    · rename_i r
      refine ⟨r.expandedRolls.map (·.1), ?_, C14_enumeration r r.source.2 r.source.1 rfl h, expandedRolls_order r h⟩
      change List.map _ (List.map _ r.expandedRolls) = _
      rw [List.map_map, List.map_map]; rfl

theorem combos_cartesian (ss : List Slot) : (combos ss).map (·.1) = cartesian (ss.map fun s => s.choices.map (·.1)) := by
  induction ss with
  | nil => rfl
  | cons s ss ih =>
    simp only [combos, cartesian, List.map_cons, ← ih, List.map_flatMap, List.flatMap_map, List.map_map]
    rfl

/-- The converted arguments a call of the function may receive. -/
def IsCombination (args : List (Option Ty × Obj)) (c : List Obj) : Prop :=
  List.Forall₂ (fun a x => ∃ l, ArgValues a l ∧ x ∈ l) args c

theorem mem_combos {args : List (Option Ty × Obj)} (h : ∀ a ∈ args, ArgOk a) {c : List Obj × ℕ}
    (hc : c ∈ combos (args.map slotOf)) : IsCombination args c.1 := by
  induction args generalizing c with
  | nil => simp [combos] at hc; subst hc; exact .nil
  | cons a as ih =>
    simp only [List.map_cons, combos, List.mem_flatMap, List.mem_map] at hc
    obtain ⟨x, hx, c', hc', rfl⟩ := hc
    exact .cons ⟨_, argValues_slot (h a List.mem_cons_self), List.mem_map.2 ⟨x, hx, rfl⟩⟩
      (ih (fun b hb => h b (List.mem_cons_of_mem _ hb)) hc')

/-- C15. With dice among the arguments: the law of the result is the law of the function's result on independent arguments
(`K a` being the law of its result on arguments `a`). -/
theorem C15_cast_law {I : Settings → Prop} {f : List Obj → M (Option Obj)} {args : List (Option Ty × Obj)}
    {K : List Obj → (ℤ → ℚ) → ℚ} (hab : ∀ a ∈ args, castAborts a = false) (hargs : ∀ a ∈ args, ArgOk a)
    (hf : ∀ c, IsCombination args c → Triple I (f c) fun v => resLaw v = some (K c) ∧ ResOk v) :
    Triple I (castCall f args) fun v => ResOk v ∧ resLaw v = some fun g => argsLaw args fun c => K c g := by
  have h1 : resultProb args (fun c => some (K c)) = 1 := by
    simp only [resultProb, Option.isSome_some, if_true]
    rw [← args_Ex hargs, Ex_const (args_mass hargs)]
  refine Triple.mono (triple_castCall (L := fun c => some (K c)) hab hargs (fun c hc => hf _ (mem_combos hargs hc))
    (by rw [h1]; exact one_ne_zero)) fun v hv => ⟨hv.1, ?_⟩
  rw [hv.2, h1]
  simp [resultMass]

/-- C15. The same for a run of a call of a pure function `φ` returning numbers. -/
theorem C15_cast_law_pure {w w' : World} (hw : Reachable w) (φ : List Obj → ℤ) {args : List (Option Ty × Obj)}
    (hab : ∀ a ∈ args, castAborts a = false) (hargs : ∀ a ∈ args, ArgOk a) {o : Option Obj}
    (h : castCall (fun c => pure (some (.num (φ c)))) args w = (.ok o, w')) (h0 : w'.warns = 0) :
    resLaw o = some fun g => argsLaw args fun c => g (φ c) :=
  ((C15_cast_law (I := fun _ => True) (f := fun c => pure (some (.num (φ c)))) (K := fun c g => g (φ c)) hab hargs
    fun _ _ => Triple.pure ⟨rfl, trivial⟩).run hw trivial h h0).2

/-- C15. Without dice for numbers or sequences the function is called once, on the converted arguments, and its result returned. -/
theorem C15_no_dice (f : List Obj → M (Option Obj)) (args : List (Option Ty × Obj))
    (hab : ∀ a ∈ args, castAborts a = false) (hno : ∀ a ∈ args, ¬ IsRandom a) : castCall f args = f (args.map argValue) := by
  have e : ∀ a ∈ args, slotOf a = .easy (argValue a) := by
    rintro ⟨ty, o⟩ ha
    have := hno _ ha
    rcases ty with _ | ty
    · rfl
    · cases ty <;> cases o <;> first | rfl | exact absurd trivial this
  have em : args.map slotOf = (args.map argValue).map .easy := by
    rw [List.map_map]; exact List.map_congr_left e
  have ec : ∀ l : List Obj, combos (l.map .easy) = [(l, 1)] := by
    intro l
    induction l with
    | nil => rfl
    | cons x l ih => simp [combos, Slot.choices, ih]
  rw [castCall_eq, if_neg (by simpa using hab), em, if_neg (by simp [Slot.isHard]), ec]
  rfl

/-- Record a call. -/
def logged (f : List Obj → M (Option Obj)) (c : List Obj) : M (Option Obj) := do
  M.modify fun w => { w with trace := w.trace ++ [c] }
  f c

theorem forList_trace {f : List Obj → M (Option Obj)} (hf : ∀ c w, (f c w).2.trace = w.trace) (l : List (List Obj × ℕ))
    (w w' : World) (ys : List (RV.Entry ℤ × ℕ)) (h : M.forList (castStep (logged f)) l w = (.ok ys, w')) :
    w'.trace = w.trace ++ l.map (·.1) := by
  induction l generalizing w ys with
  | nil => cases h; simp
  | cons c l ih =>
    rw [M.forList_cons, M.bind_ok_iff] at h
    obtain ⟨y, w1, h1, h2⟩ := h
    rw [M.bind_ok_iff] at h2
    obtain ⟨ys', w2, h2, h3⟩ := h2
    cases h3
    rw [ih _ _ h2]
    unfold castStep at h1
    rw [M.bind_ok_iff] at h1
    obtain ⟨v, w3, h1, h4⟩ := h1
    cases h4
    have := hf c.1 { w with trace := w.trace ++ [c.1] }
    change f c.1 { w with trace := w.trace ++ [c.1] } = _ at h1
    rw [h1] at this
    rw [this]; simp

theorem castMix_trace (ys : List (RV.Entry ℤ × ℕ)) (w : World) : (castMix ys w).2.trace = w.trace := by
  unfold castMix
  rw [M.bind_apply]
  have : (M.ofLimited (fun st => RV.fromRvs st (ys.map fun x => x.1) (some (ys.map fun x => (x.2 : ℤ)))) w).2.trace = w.trace := by
    unfold M.ofLimited
    split
    · simp only; split <;> rfl
    · rfl
  split
  · rename_i h; rw [h] at this; exact this
  · rename_i h; rw [h] at this; exact this

/-- C15. The calls made: one for every combination of the arguments' values, in order. -/
theorem C15_calls {f : List Obj → M (Option Obj)} (hf : ∀ c w, (f c w).2.trace = w.trace) {args : List (Option Ty × Obj)}
    (hab : ∀ a ∈ args, castAborts a = false) (hargs : ∀ a ∈ args, ArgOk a) {w w' : World} {o : Option Obj}
    (h : castCall (logged f) args w = (.ok o, w')) :
    ∃ vs, List.Forall₂ ArgValues args vs ∧ w'.trace = w.trace ++ cartesian vs := by
  refine ⟨args.map fun a => (slotOf a).choices.map (·.1), ?_, ?_⟩
  · clear h hab
    induction args with
    | nil => exact .nil
    | cons a as ih =>
      exact .cons (argValues_slot (hargs a List.mem_cons_self)) (ih fun b hb => hargs b (List.mem_cons_of_mem _ hb))
  · have e : cartesian (args.map fun a => (slotOf a).choices.map (·.1)) = (combos (args.map slotOf)).map (·.1) := by
      rw [combos_cartesian, List.map_map]; rfl
    rw [e]
    rw [castCall_eq, if_neg (by simpa using hab)] at h
    split at h
    · rw [M.bind_ok_iff] at h
      obtain ⟨ys, w1, h1, h2⟩ := h
      have := castMix_trace ys w1
      rw [h2] at this
      rw [this, forList_trace hf _ _ _ _ h1]
    · rename_i hh
      obtain ⟨a, ha⟩ := combos_easy (Bool.eq_false_iff.2 hh)
      rw [ha] at h ⊢
      change f a { w with trace := w.trace ++ [a] } = _ at h
      have := hf a { w with trace := w.trace ++ [a] }
      rw [h] at this
      rw [this]; rfl

/-- a user function of a number and a sequence -/
def firstPlus : List Obj → M (Option Obj)
  | [.num n, .seq s] => pure (some (.num (n + s.getD 0 0)))
  | _ => M.throw .type

example : castCall firstPlus [(some .N, .rv ⟨[1, 2], [1, 1], none⟩), (some .S, .rv ⟨[2, 3, 4], [1, 2, 1],
    some (2, [1, 2], [1, 1])⟩)] {} = (.ok (some (.rv ⟨[2, 3, 4], [1, 4, 3], none⟩)), {}) := by decide +kernel

example : (castCall (logged firstPlus) [(some .N, .rv ⟨[1, 2], [1, 1], none⟩), (some .S, .rv ⟨[2, 3, 4], [1, 2, 1],
    some (2, [1, 2], [1, 1])⟩)] {}).2.trace = [[.num 1, .seq [2, 2]], [.num 1, .seq [2, 1]], [.num 1, .seq [1, 1]],
      [.num 2, .seq [2, 2]], [.num 2, .seq [2, 1]], [.num 2, .seq [1, 1]]] := by decide +kernel

example : castCall firstPlus [(some .N, .seq [1, 2]), (some .S, .num 5)] {} = (.ok (some (.num 8)), {}) := by decide +kernel

/-! ## C16 -/

/-- C16. A blank die for a number or sequence: a special blank, and the function is not called. -/
theorem C16_blank_arg (f : List Obj → M (Option Obj)) (args : List (Option Ty × Obj)) (t : Ty) (ht : t ≠ .D) (b : Bool)
    (h : (some t, .blank b) ∈ args) (w : World) : castCall f args w = (.ok (some (.blank true)), w) := by
  rw [castCall_eq, if_pos]
  · rfl
  · rw [List.any_eq_true]
    refine ⟨_, h, ?_⟩
    cases t
    · rfl
    · rfl
    · exact absurd rfl ht

/-- C16. A blank die for a die or for an unannotated parameter is passed through. -/
theorem C16_blank_passed (f : List Obj → M (Option Obj)) (pre post : List (Option Ty × Obj)) (t : Option Ty)
    (ht : t = none ∨ t = some .D) (b : Bool) (hab : ∀ a ∈ pre ++ post, castAborts a = false)
    (hno : ∀ a ∈ pre ++ post, ¬ IsRandom a) :
    castCall f (pre ++ (t, .blank b) :: post) = f (pre.map argValue ++ .blank b :: post.map argValue) := by
  rw [C15_no_dice]
  · rcases ht with rfl | rfl <;> simp [argValue]
  · intro a ha
    rcases List.mem_append.1 ha with h | h
    · exact hab a (by simp [h])
    · rcases List.mem_cons.1 h with rfl | h
      · rcases ht with rfl | rfl <;> rfl
      · exact hab a (by simp [h])
  · intro a ha
    rcases List.mem_append.1 ha with h | h
    · exact hno a (by simp [h])
    · rcases List.mem_cons.1 h with rfl | h
      · rcases ht with rfl | rfl <;> exact id
      · exact hno a (by simp [h])

/-- C16. Outcomes on which the function returns nothing or a blank (`L c = none`) are dropped: the law of the result is the
law given that the result is not blank. -/
theorem C16_conditional {I : Settings → Prop} {f : List Obj → M (Option Obj)} {args : List (Option Ty × Obj)}
    {L : List Obj → Option ((ℤ → ℚ) → ℚ)} (hab : ∀ a ∈ args, castAborts a = false) (hargs : ∀ a ∈ args, ArgOk a)
    (hf : ∀ c, IsCombination args c → Triple I (f c) fun v => resLaw v = L c ∧ ResOk v)
    (hpos : resultProb args L ≠ 0) :
    Triple I (castCall f args) fun v => ResOk v ∧
      resLaw v = some fun g => resultMass args L g / resultProb args L :=
  triple_castCall hab hargs (fun c hc => hf _ (mem_combos hargs hc)) hpos

/-- C16. If the function returns nothing or a blank on every combination, the result is a blank. -/
theorem C16_all_blank {I : Settings → Prop} {f : List Obj → M (Option Obj)} {args : List (Option Ty × Obj)}
    (hab : ∀ a ∈ args, castAborts a = false) (hargs : ∀ a ∈ args, ArgOk a) (hran : ∃ a ∈ args, IsRandom a)
    (hf : ∀ c, IsCombination args c → Triple I (f c) fun v => resLaw v = none) :
    Triple I (castCall f args) fun v => v = some (.blank false) := by
  rw [castCall_eq, if_neg (by simpa using hab), if_pos]
  · refine Triple.bind (P := fun ys => ∀ y ∈ ys, y.1 = RV.Entry.blank)
      (Triple.mono (Triple.forList (P := fun _ y => y.1 = RV.Entry.blank) fun c hc => ?_) ?_) (fun ys hys => ?_)
      fun ys => triple_castMix ys
    · exact Triple.bind (hf _ (mem_combos hargs hc)) (fun v hv => Triple.pure (resultEntry_blank hv))
        fun v => Triple.pure True.intro
    · intro ys h
      generalize combos (args.map slotOf) = C at h
      induction h with
      | nil => simp
      | cons h1 _ ih => simpa using ⟨h1, fun a b hab => ih _ hab⟩
    · unfold castMix
      refine Triple.bind (P := fun x => x = none) (Triple.ofLimited ?_) (fun x hx => by subst hx; exact Triple.pure rfl)
        fun x => Triple.pure True.intro
      intro st x _ hx
      have hf0 : (ys.map fun x => x.1).filter (fun e => !e.isBlank) = [] := by
        rw [List.filter_eq_nil_iff]
        intro e he
        obtain ⟨y, hy, rfl⟩ := List.mem_map.1 he
        rw [hys y hy]; simp [RV.Entry.isBlank]
      unfold RV.fromRvs at hx
      simp only [hf0, List.length_nil, if_true] at hx
      cases hx; rfl
  · exact isHard_of_random hran

/-- a user function: nothing on small rolls -/
def big : List Obj → M (Option Obj)
  | [.num n] => pure (if n < 3 then none else some (.num n))
  | _ => M.throw .type

example : castCall big [(some .N, .rv ⟨[1, 2, 3, 4], [1, 1, 1, 3], none⟩)] {} =
    (.ok (some (.rv ⟨[3, 4], [1, 3], none⟩)), {}) := by decide +kernel

example : castCall big [(some .N, .rv ⟨[1, 2], [1, 1], none⟩)] {} = (.ok (some (.blank false)), {}) := by decide +kernel

end PythonDice
