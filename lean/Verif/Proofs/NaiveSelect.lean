import Verif.Proofs.NaiveCast

/-! Unary operations, lengths, sequences and selection on dice with a law. -/

namespace PythonDice
open Spec
open Spec.Naive (Law Val mean sure push andThen uniform draws support interval choices allChoices outcomes mixed callAll convert)

namespace Enum

/-! ## Unary operations -/

theorem full_negOp {I : Settings → Prop} {o : Obj} {v x : Val} (h : Rep o v) (hx : Naive.unary true .minus v = some x) :
    Full I (negOp o) fun y => Rep y x := by
  match o, v, h with
  | .num a, .num _, h => cases h; cases hx; exact Full.pure rfl
  | .seq a, .seq _, h => cases hx
  | .blank a, .blank _, h => cases h; cases hx; exact Full.pure rfl
  | .rv r, .die l p, h => cases hx; exact full_neg (o := .rv r) (v := .die l p) h

theorem invert_rep {st : Settings} {d r : RV ℤ} {l : Law} (hd : DieRep d l) (h : RV.invert st d = .ok r) :
    r = ⟨[Naive.bit (l.all fun x => decide (x.1 = 0))], [1], none⟩ := by
  have hiff : (d.vals = [0] ∧ d.probs = [1]) ↔ (l.all fun x => decide (x.1 = 0)) = true := by
    rw [List.all_eq_true]
    constructor
    · rintro ⟨h1, _⟩ x hx
      have := (hd.mem_vals x.1).2 (List.mem_map_of_mem hx)
      rw [h1] at this
      simpa using this
    · intro hall
      have hv : d.vals = [0] := by
        refine RV.sorted_ext hd.proper.sorted (by simp) fun v => ?_
        rw [hd.mem_vals, List.mem_singleton]
        constructor
        · intro hv
          obtain ⟨x, hx, rfl⟩ := List.mem_map.1 hv
          simpa using hall x hx
        · rintro rfl
          obtain ⟨z, hz⟩ := List.exists_mem_of_ne_nil _ hd.ne_nil
          have := hall z hz
          simp only [decide_eq_true_eq] at this
          rw [← this]
          exact List.mem_map_of_mem hz
      refine ⟨hv, ?_⟩
      have hl := hd.proper.len
      rw [hv] at hl
      obtain ⟨p, hp⟩ := List.length_eq_one_iff.1 hl.symm
      have := hd.coprime p (by rw [hp]; simp)
      rw [hp, this]
  unfold RV.invert at h
  split at h
  · rename_i h0
    rw [fromConst_eq] at h
    cases h
    rw [hiff.1 h0]; rfl
  · rename_i h0
    rw [fromConst_eq] at h
    cases h
    rw [Bool.eq_false_iff.2 (fun e => h0 (hiff.2 e))]; rfl

theorem fine_invert (st : Settings) (d : RV ℤ) : Fine (RV.invert st d) := by
  unfold RV.invert
  split <;> exact .of_eq (fromConst_eq _ _)

theorem full_myInvert {I : Settings → Prop} {o : Obj} {v : Val} (h : Rep o v) : Full I (myInvert o) fun y => Rep y (Naive.negate true v) := by
  match o, v, h with
  | .num a, .num _, h =>
    cases h
    refine Full.pure ?_
    change (if a = 0 then (1 : ℤ) else 0) = Naive.bit (decide (a = 0))
    by_cases h0 : a = 0 <;> simp [h0, Naive.bit]
  | .seq s, .seq _, h =>
    cases h
    refine Full.pure ?_
    change (if s.sum = 0 then (1 : ℤ) else 0) = Naive.bit (decide (s.sum = 0))
    by_cases h0 : s.sum = 0 <;> simp [h0, Naive.bit]
  | .blank a, .blank _, h =>
    cases h
    refine Full.pure ?_
    cases a <;> rfl
  | .rv r, .die l p, h =>
    refine Full.map (P := fun q => q = ⟨[Naive.bit (l.all fun x => decide (x.1 = 0))], [1], none⟩)
      (Full.ofSettings (fun st q _ hq => invert_rep h.1 hq) fun st _ => fine_invert st r) fun q hq => ?_
    subst hq
    exact Rep.one (DieRep.const _ _) rfl

theorem full_unary {I : Settings → Prop} (ints : Bool) (op : Compiler.UnOp) {o : Obj} {v x : Val} (h : Rep o v)
    (hx : Naive.unary ints op v = some x) : Full I (runUnary ints op o) fun y => Rep y x := by
  cases op with
  | plus =>
    match o, v, h with
    | .num a, .num _, h => cases hx; exact Full.pure h
    | .seq a, .seq _, h => cases hx
    | .blank a, .blank _, h => cases hx; exact Full.pure h
    | .rv r, .die l p, h => cases hx; exact Full.pure h
  | minus => exact full_negOp h (by cases v <;> exact hx)
  | not_ =>
    cases ints with
    | true =>
      cases hx
      exact full_myInvert h
    | false =>
      match o, v, h with
      | .num a, .num _, h => cases h; cases hx; exact Full.pure rfl
      | .seq a, .seq _, h => cases hx; exact full_myInvert (o := .seq a) h
      | .blank a, .blank _, h => cases hx; exact full_myInvert (o := .blank a) h
      | .rv r, .die l p, h => cases hx; exact full_myInvert (o := .rv r) (v := .die l p) h

/-! ## Lengths -/

theorem digits_eq (n : ℤ) : Naive.digits n = (decDigits n.natAbs).map fun d : ℕ => (d : ℤ) := by
  unfold Naive.digits decDigits
  by_cases h : n = 0
  · subst h; rfl
  · rw [if_neg h, if_neg (by omega), List.map_reverse]

theorem myLen_size {o : Obj} {v : Val} (h : Rep o v) {k : ℕ} (hk : Naive.size v = some k) : myLen o = k := by
  match o, v, h with
  | .num a, .num _, h =>
    cases h
    cases hk
    rw [digits_eq, List.length_map]; rfl
  | .seq s, .seq _, h => cases h; cases hk; rfl
  | .blank a, .blank _, h => cases h; cases hk; rfl
  | .rv r, .die l none, h => cases hk
  | .rv r, .die l (some (n, b)), h =>
    cases hk
    have := (h.2 k b rfl).1
    unfold RV.source at this
    change r.len = k
    unfold RV.len
    split <;> simp_all

theorem full_hash {I : Settings → Prop} (ints : Bool) {o : Obj} {v x : Val} (h : Rep o v) (hx : Naive.hash ints v = some x) :
    Full I (runLen ints o) fun y => Rep y x := by
  have key : ∀ k, Naive.size v = some k → Rep (.num (myLen o)) (.num (k : ℤ)) := fun k hk => by rw [myLen_size h hk]; rfl
  cases ints with
  | true =>
    refine Full.pure ?_
    cases v with
    | num n => cases hx; exact key _ rfl
    | seq s => cases hx; exact key _ rfl
    | blank b => cases hx; exact key _ rfl
    | die l p =>
      simp only [Naive.hash, Option.map_eq_some_iff] at hx
      obtain ⟨k, hk, rfl⟩ := hx
      exact key _ hk
  | false =>
    match o, v, h with
    | .num a, .num _, h => cases hx
    | .seq s, .seq _, h => cases hx; exact Full.pure (key _ rfl)
    | .blank a, .blank _, h => cases hx; exact Full.pure (key _ rfl)
    | .rv r, .die l p, h =>
      simp only [Naive.hash, Option.map_eq_some_iff] at hx
      obtain ⟨k, hk, rfl⟩ := hx
      exact Full.pure (key _ hk)

/-! ## Sequences -/

theorem getSeq_rep {os : List Obj} {vs : List Val} (h : List.Forall₂ Rep os vs) : Rep (.seq (getSeq [.iter (os.map Obj.toSrc)])) (Naive.seqOf vs) := by
  have hn : ∀ s : List ℤ, numbersIn (s.map Src.num) = s ∧ facesIn (s.map Src.num) = [] := by
    intro s
    induction s with
    | nil => exact ⟨rfl, rfl⟩
    | cons x s ih => simp [numbersIn, facesIn, numbersOf, facesOf, ih.1, ih.2]
  change getSeq _ = _
  rw [C24_contents]
  simp only [numbersIn, facesIn, numbersOf, facesOf, List.append_nil]
  congr 1
  · induction h with
    | nil => rfl
    | @cons o v os vs hd _ ih =>
      rw [List.map_cons, numbersIn, List.flatMap_cons, ih]
      congr 1
      match o, v, hd with
      | .num a, .num _, h => cases h; rfl
      | .seq s, .seq _, h => cases h; exact (hn s).1
      | .blank a, .blank _, h => rfl
      | .rv r, .die l p, h => rfl
  · induction h with
    | nil => rfl
    | @cons o v os vs hd _ ih =>
      rw [List.map_cons, facesIn, List.flatMap_cons, ih]
      congr 1
      match o, v, hd with
      | .num a, .num _, h => rfl
      | .seq s, .seq _, h => exact (hn s).2
      | .blank a, .blank _, h => rfl
      | .rv r, .die l p, h => exact h.1.vals_eq

theorem full_range {I : Settings → Prop} {a b : Obj} {u v x : Val} (ha : Rep a u) (hb : Rep b v) (hx : Naive.rangeVal u v = some x) :
    Full I (myRange a b) fun y => Rep y x := by
  cases u <;> cases v <;> simp only [Naive.rangeVal, Option.some.injEq, reduceCtorEq] at hx
  rw [ha.num_inv, hb.num_inv, ← hx]
  exact Full.pure rfl

theorem full_truth {I : Settings → Prop} {o : Obj} {v : Val} {t : Bool} (h : Rep o v) (ht : Naive.truth v = some t) :
    Full I (truthOp o) fun b => b = t := by
  cases v <;> simp only [Naive.truth, Option.some.injEq, reduceCtorEq] at ht
  · rw [h.num_inv, ← ht]; exact Full.pure rfl
  · rw [h.seq_inv, ← ht]; exact Full.pure rfl

theorem full_iter {I : Settings → Prop} {o : Obj} {v : Val} {ns : List ℤ} (h : Rep o v) (hn : Naive.numbers v = some ns) :
    Full I (iterOp o) fun l => l = ns := by
  cases v <;> simp only [Naive.numbers, Option.some.injEq, reduceCtorEq] at hn
  rw [h.seq_inv, ← hn]; exact Full.pure rfl

/-! ## Selection -/

theorem elemAt_eq (s : List ℤ) (i : ℤ) : getItem s i = Naive.elemAt s i := by
  rw [getItem_eq]; rfl

theorem sumAt_eq (s is : List ℤ) : sumAt s is = Naive.sumAt s is := by
  unfold sumAt Naive.sumAt
  congr 1
  exact List.map_congr_left fun i _ => elemAt_eq s i

/-- The setting. -/
def order (low : Bool) : PosOrder := if low then .lowestFirst else .highestFirst

theorem rank_exists {st : Settings} {low : Bool} (ho : st.positionOrder = order low) {n : ℕ} {k : ℤ} (hk : 1 ≤ k ∧ k ≤ n) :
    ∃ i : ℕ, i < n ∧ RV.ascRank st n k = i + 1 := by
  unfold RV.ascRank
  rw [ho]
  cases low
  · exact ⟨((n : ℤ) - k).toNat, by omega, by simp only [order]; simp; omega⟩
  · exact ⟨(k - 1).toNat, by omega, by simp only [order]; simp; omega⟩

theorem kth_rep0 {st : Settings} {low : Bool} (ho : st.positionOrder = order low) {D q : RV ℤ} {b : Law} (hD : DieRep D b) {n : ℕ} {k : ℤ}
    (hk : 1 ≤ k ∧ k ≤ n) {i : ℕ} (hi : i < n) (hki : RV.ascRank st n k = i + 1)
    (hr1 : RV.mk' st D.vals (D.vals.map (RV.kthWeight D n (n - i))) = .ok q) :
    DieRep q (push (fun xs => Naive.elemAt (if low then ascending xs else descending xs) k) (draws b n)) ∧ q.src = none := by
  obtain ⟨h1, h2⟩ := RV.kthOrder_law0 (fun _ _ => rfl) hD.proper.len hD.proper.sorted hD.proper.pos n i hi hr1 0
  have law : ∀ f, Ex q.pairs f = mean (push (fun xs => Naive.elemAt (if low then ascending xs else descending xs) k) (draws b n)) f := by
    intro f
    rw [h2, mean_push, ← hD.draws]
    refine ExN_congr fun xs hxs => ?_
    unfold RV.ascRank at hki
    rw [ho] at hki
    cases low
    · have hki' : (n : ℤ) - k + 1 = i + 1 := hki
      rw [← kthHighest_eq (by rw [hxs]; exact hki') hk.1]
      rfl
    · have hki' : k = i + 1 := hki
      rw [hki', if_pos rfl, Naive.elemAt, if_pos (by omega)]
      congr 2
      omega
  have hc := RV.mk'_canonical hr1
  have hp : q.Proper := hc.proper h1
  refine ⟨DieRep.of hp hc ((hD.pos.draws n).push _) law fun v hv => ?_, mk'_src hr1⟩
  have hvD : v ∈ D.vals := by
    refine mk'_support hr1 ?_ hv
    have hnn := (RV.mk'_ok hr1).2.1
    have hz := RV.kth_zsum hD.proper.len hD.proper.sorted hD.proper.pos n i hi 0 (f := fun _ => 1)
    rw [ExN_const hD.proper.pos, mul_one] at hz
    have e2 : D.vals.zip ((D.vals.map (RV.kthWeight D n (n - i))).map Int.toNat) =
        RV.natPairs (D.vals.zip (D.vals.map (RV.kthWeight D n (n - i)))) := by
      rw [RV.natPairs, List.zip_map_right]; rfl
    rw [e2, mass, RV.natPairs_wsum, hz]
    · exact pow_ne_zero _ hD.proper.pos
    · intro x hx
      exact hnn _ (List.of_mem_zip hx).2
  refine mem_fst_push.2 ⟨List.replicate n v, mem_fst_draws.2 ⟨by simp, fun x hx => ?_⟩, ?_⟩
  · rw [List.eq_of_mem_replicate hx]; exact (hD.mem_vals v).1 hvD
  · have h1 : descending (List.replicate n v) = List.replicate n v :=
      List.Pairwise.insertionSort_eq (List.pairwise_replicate.2 (Or.inr le_rfl))
    have h2 : ascending (List.replicate n v) = List.replicate n v :=
      List.Pairwise.insertionSort_eq (List.pairwise_replicate.2 (Or.inr le_rfl))
    rw [h1, h2, ite_self, Naive.elemAt, if_pos hk.1, List.getD_eq_getElem?_getD, List.getElem?_replicate, if_pos (by omega)]; rfl

theorem kth_rep {st : Settings} {low : Bool} (ho : st.positionOrder = order low) {D q : RV ℤ} {b : Law} (hD : DieRep D b) {n : ℕ} {k : ℤ}
    (hk : 1 ≤ k ∧ k ≤ n) (h : RV.kthOrderStatistic st D n k = .ok (some q, false)) :
    DieRep q (push (fun xs => Naive.elemAt (if low then ascending xs else descending xs) k) (draws b n)) ∧ q.src = none := by
  obtain ⟨i, hi, hki⟩ := rank_exists ho hk
  exact kth_rep0 ho hD hk hi hki
    (RV.kthOrder_of (fun _ _ => rfl) hD.proper.len hD.proper.sorted (fun _ => hD.nz) hD.coprime hD.proper.pos n i k hi hki h)

theorem Rep.one_congr {o : Obj} {l m : Law} (h : Rep o (Naive.one l)) (hm : Pos m) (e : ∀ f, mean m f = mean l f) : Rep o (Naive.one m) := by
  obtain ⟨r, rfl, h1, h2⟩ := h.die_inv
  refine ⟨h1.congr hm e, fun k b hk => ?_⟩
  cases hk
  obtain ⟨h3, h4⟩ := h2 1 l rfl
  exact ⟨h3, h4.congr hm e⟩

theorem mixed_one {cs : List (List Val × ℚ)} {G : List Val → Option Val} {m : Law} (hm : Pos m) (ht : (mean m fun _ => 1) = 1)
    (h : ∀ f, (mean cs fun vs => mean (outcomes (G vs)) f) = mean m f) {o : Obj} (ho : Rep o (mixed (push G cs))) : Rep o (Naive.one m) := by
  have hl : ∀ f, mean (andThen (push G cs) outcomes) f = mean m f := fun f => by rw [mean_andThen, mean_push]; exact h f
  have hne : andThen (push G cs) outcomes ≠ [] := by
    intro e
    have := hl fun _ => 1
    rw [e, ht] at this
    simp at this
  unfold mixed at ho
  simp only at ho
  rw [if_neg hne] at ho
  refine ho.one_congr hm fun f => ?_
  rw [hl fun _ => 1, ht]
  simp only [div_one]
  rw [← hl f]
  congr 1
  exact (List.map_id' _).symm

theorem callAll_of {f : List Val → Option (Option Val)} {G : List Val → Option Val} {cs : List (List Val × ℚ)}
    (h : ∀ vs ∈ cs.map Prod.fst, f vs = some (G vs)) : callAll f cs = some (push G cs) := by
  induction cs with
  | nil => rfl
  | cons c cs ih =>
    rw [callAll, h c.1 (by simp), ih fun vs hvs => h vs (by simp [hvs])]
    rfl

/-- The dice at positions. -/
def sumAtVal : List Val → Option (Option Val)
  | [.seq s, .seq is] => some (some (.num (Naive.sumAt s is)))
  | _ => none

theorem full_sumAt {I : Settings → Prop} (os : List Obj) (vs : List Val) (res : Option Val) (hos : List.Forall₂ Rep os vs)
    (hres : sumAtVal vs = some res) : Full I (sumAtFn os) fun o => RepO o res := by
  match vs, hres with
  | [.seq s, .seq t], hres =>
    cases hres
    cases hos with
    | cons h1 hos =>
      cases hos with
      | cons h2 hos =>
        cases hos
        rw [h1.seq_inv, h2.seq_inv]
        exact Full.pure (sumAt_eq s t)

/-- Positions, as a call for every outcome. -/
theorem pick_cast (l : Law) (is : List ℤ) (n : ℕ) (b : Law) : ∃ cs : List (List Val × ℚ),
    Naive.cast sumAtVal [(some .S, .die l (some (n, b))), (some .S, .seq is)] = some (mixed (push (fun vs => (sumAtVal vs).getD none) cs)) ∧
      ∀ f, (mean cs fun vs => mean (outcomes ((sumAtVal vs).getD none)) f) =
        mean (push (fun xs => Naive.sumAt (descending xs) is) (draws b n)) f := by
  set cs := push (fun xs : List ℤ => [Val.seq (descending xs), Val.seq is]) (draws b n) with hcs
  have hmem : ∀ vs ∈ cs.map Prod.fst, ∃ xs : List ℤ, vs = [Val.seq (descending xs), Val.seq is] := by
    intro vs hvs
    obtain ⟨xs, _, rfl⟩ := mem_fst_push.1 hvs
    exact ⟨xs, rfl⟩
  have hall : allChoices [(some .S, .die l (some (n, b))), (some .S, .seq is)] = some cs := by
    simp only [allChoices, choices, convert, Option.bind_eq_bind, Option.bind_some, Option.some.injEq]
    simp [hcs, andThen, push, sure]
    induction draws b n with
    | nil => rfl
    | cons z zs ih => simp [ih]
  refine ⟨cs, ?_, fun f => ?_⟩
  · unfold Naive.cast
    rw [if_neg (by simp [Naive.nothing]), if_pos (by simp [Naive.random]), hall]
    simp only [Option.bind_eq_bind, Option.bind_some]
    rw [callAll_of (G := fun vs => (sumAtVal vs).getD none)]
    · rfl
    · intro vs hvs
      obtain ⟨xs, rfl⟩ := hmem vs hvs
      rfl
  · rw [hcs, mean_push, mean_push]
    congr 1
    funext xs
    simp [sumAtVal, outcomes]

theorem full_pick {I : Settings → Prop} {low : Bool} (hI : ∀ st, I st → st.positionOrder = order low) (is : List ℤ) {r : RV ℤ} {l : Law}
    {p : Option (ℕ × Law)} {x : Val} (h : Rep (.rv r) (.die l p)) (hx : Naive.pick low is (.die l p) = some x) :
    Full I (rvRmatmul is r) fun y => Rep y x := by
  rcases p with _ | ⟨n, b⟩
  · cases hx
  obtain ⟨hn, hb⟩ := h.2 n b rfl
  have single : ∀ i : ℤ, is = [i] → Full I (rvRmatmul is r) fun y => Rep y x := by
    rintro i rfl
    change Full I (M.ofLimited _ >>= _) _
    have hx' : (if 1 ≤ i ∧ i ≤ n then some (Naive.one (push (fun xs => Naive.elemAt (if low then ascending xs else descending xs) i) (draws b n))) else some (.num 0)) = some x := hx
    refine Full.bind (P := fun y : Option (RV ℤ) => match y with
      | some q => (1 ≤ i ∧ i ≤ n) ∧ DieRep q (push (fun xs => Naive.elemAt (if low then ascending xs else descending xs) i) (draws b n)) ∧ q.src = none
      | none => ¬ (1 ≤ i ∧ i ≤ n)) (Full.ofLimited ?_ fun st _ => Fine.kth hb.proper.len hb.proper.sorted (fun _ => hb.nz) hb.coprime hb.proper.pos _ _)
      (fun y hy => ?_) fun y => Triple.pure True.intro
    · intro st y hst hy
      rw [hn] at hy
      have heq := RV.kthOrder_eq (st := st) (r := r.source.2) (fun _ _ => rfl) hb.proper.len hb.proper.sorted hb.proper.nonempty (fun _ => hb.nz)
        hb.coprime n i
      have hrank : (1 ≤ i ∧ i ≤ n) ↔ (1 ≤ RV.ascRank st n i ∧ RV.ascRank st n i ≤ n) := by
        unfold RV.ascRank
        rw [hI st hst]
        cases low
        · change _ ↔ 1 ≤ (n : ℤ) - i + 1 ∧ (n : ℤ) - i + 1 ≤ n
          omega
        · exact Iff.rfl
      by_cases hk : 1 ≤ i ∧ i ≤ n
      · cases y with
        | none =>
          exfalso
          rw [heq] at hy
          have hk' := hrank.1 hk
          rw [if_neg (by omega), RV.bind_ok_iff] at hy
          obtain ⟨_, _, hy⟩ := hy
          rw [RV.bind_ok_iff] at hy
          obtain ⟨_, _, hy⟩ := hy
          cases hy
        | some q => exact ⟨hk, kth_rep (hI st hst) hb hk hy⟩
      · rw [heq] at hy
        have hk' := fun h => hk (hrank.2 h)
        rw [if_pos (by omega)] at hy
        cases hy
        exact hk
    · cases y with
      | none =>
        simp only at hy
        rw [if_neg hy] at hx'
        cases hx'
        exact Full.pure rfl
      | some q =>
        simp only at hy
        rw [if_pos hy.1] at hx'
        cases hx'
        exact Full.pure (Rep.one hy.2.1 hy.2.2)
  by_cases hs : ∃ i, is = [i]
  · obtain ⟨i, hi⟩ := hs
    exact single i hi
  · have e : rvRmatmul is r = castCall sumAtFn [(some .S, .rv r), (some .S, .seq is)] >>= fun res => pure (res.getD (.blank false)) := by
      match is, hs with
      | [], _ => rfl
      | [i], hs => exact absurd ⟨i, rfl⟩ hs
      | _ :: _ :: _, _ => rfl
    have ex : x = Naive.one (push (fun xs => Naive.sumAt (descending xs) is) (draws b n)) := by
      match is, hs with
      | [], _ => cases hx; rfl
      | [i], hs => exact absurd ⟨i, rfl⟩ hs
      | _ :: _ :: _, _ => cases hx; rfl
    rw [e]
    subst ex
    obtain ⟨cs, hcast, hm⟩ := pick_cast l is n b
    have T := full_castRep (I := I) (f := sumAtFn) (args := [(some .S, .rv r), (some .S, .seq is)])
      (vals := [(some .S, .die l (some (n, b))), (some .S, .seq is)])
      (.cons ⟨rfl, h⟩ (.cons ⟨rfl, rfl⟩ .nil)) full_sumAt hcast
    refine Full.bind T (fun y hy => Full.pure (mixed_one ((hb.pos.draws n).push _) ?_ hm hy)) fun _ => Triple.pure True.intro
    rw [mean_push, ← hb.draws, ExN_const hb.proper.pos]

theorem full_matmul {I : Settings → Prop} {low : Bool} (hI : ∀ st, I st → st.positionOrder = order low) {ints : Bool} {a b : Obj} {u v x : Val}
    (ha : Rep a u) (hb : Rep b v) (hx : Naive.at' low ints u v = some x) (hnn : ∀ i n, u = .num i → v ≠ .num n) : Full I (matmul a b) fun y => Rep y x := by
  match a, u, ha with
  | .num i, .num _, ha =>
    cases ha
    match b, v, hb with
    | .num n, .num _, hb => exact absurd rfl (hnn _ _ rfl)
    | .seq s, .seq _, hb =>
      cases hb; cases hx
      exact Full.pure (elemAt_eq s i)
    | .rv r, .die l p, hb => exact full_pick hI [i] hb hx
    | .blank c, .blank _, hb =>
      cases hb; cases hx
      refine Full.pure ?_
      cases c
      · rfl
      · by_cases h1 : i = 1 <;> simp [blankRmatmul, h1, Rep]
  | .seq is, .seq _, ha =>
    cases ha
    match b, v, hb with
    | .num n, .num _, hb =>
      cases hb
      simp only [Naive.at'] at hx
      split at hx
      · rename_i hn
        cases hx
        have hds : digitsSeq n = .ok (Naive.digits n) := by
          unfold digitsSeq strInt
          rw [if_neg (by omega)]
          have : ∀ l : List ℕ, (l.map some).mapM intOfChar = .ok (l.map fun d : ℕ => (d : ℤ)) := by
            intro l
            induction l with
            | nil => rfl
            | cons d l ih => rw [List.map_cons, List.mapM_cons, ih]; rfl
          rw [this, digits_eq]
        refine Full.bind (P := fun ds => ds = Naive.digits n) (Full.ofSettings ?_ fun _ _ => .of_eq hds) (fun ds hds => ?_)
          fun _ => Triple.pure True.intro
        · intro st ds _ hds'
          rw [hds] at hds'
          cases hds'
          rfl
        · rw [hds]
          exact Full.pure (sumAt_eq _ _)
      · cases hx
    | .seq s, .seq _, hb =>
      cases hb; cases hx
      exact Full.pure (sumAt_eq s is)
    | .rv r, .die l p, hb => exact full_pick hI is hb hx
    | .blank c, .blank _, hb =>
      cases hb; cases hx
      refine Full.pure ?_
      have e : (seqCmpNum .ne is 1 ≠ 0) ↔ ∃ i ∈ is, i ≠ 1 := by
        have := seqCmpNum_count .ne is 1
        change seqCmpNum .ne is 1 = _ at this
        rw [this, Ne, Nat.cast_eq_zero, List.countP_eq_zero]
        simp [Naive.test]
      cases c
      · simp [blankRmatmul, Rep]
      · by_cases h1 : ∃ i ∈ is, i ≠ 1
        · have e1 : blankRmatmul true (decide (seqCmpNum .ne is 1 ≠ 0)) = .num 0 := by rw [decide_eq_true (e.2 h1)]; rfl
          rw [e1, if_pos ⟨rfl, h1⟩]; rfl
        · have e1 : blankRmatmul true (decide (seqCmpNum .ne is 1 ≠ 0)) = .blank true := by rw [decide_eq_false (fun h => h1 (e.1 h))]; rfl
          rw [e1, if_neg fun h => h1 h.2]; rfl
  | .rv _, .die _ _, _ => cases v <;> cases hx
  | .blank _, .blank _, _ => cases v <;> cases hx

theorem full_at {I : Settings → Prop} {low : Bool} (hI : ∀ st, I st → st.positionOrder = order low) (ints : Bool) {a b : Obj} {u v x : Val}
    (ha : Rep a u) (hb : Rep b v) (hx : Naive.at' low ints u v = some x) : Full I (runBin ints .at_ a b) fun y => Rep y x := by
  have T := full_matmul (I := I) hI ha hb hx
  cases ints with
  | false => exact T fun i n hi hn => by subst hi; subst hn; cases hx
  | true =>
    change Full I (myMatmul a b) _
    by_cases hnn : (∃ k, a = .num k) ∧ ∃ n, b = .num n
    · obtain ⟨⟨k, rfl⟩, n, rfl⟩ := hnn
      cases u <;> first | exact absurd ha id | skip
      cases v <;> first | exact absurd hb id | skip
      cases ha; cases hb
      simp only [Naive.at', true_and] at hx
      split at hx
      · rename_i hn
        cases hx
        have hs : strInt n = (decDigits n.natAbs).map some := by unfold strInt; rw [if_neg (by omega)]
        unfold myMatmul
        simp only [hs, List.length_map]
        split
        · rename_i hk
          have hlt : (k - 1).toNat < (decDigits n.natAbs).length := by omega
          rw [List.getD_eq_getElem _ _ (by simpa using hlt), List.getElem_map]
          refine Full.map (P := fun z => z = Naive.elemAt (Naive.digits n) k) (Full.ofSettings (fun _ z _ hz => ?_) fun _ _ => .ok _) fun z hz => hz
          cases hz
          rw [Naive.elemAt, if_pos (by omega), digits_eq, List.getD_eq_getElem _ _ (by simpa using hlt), List.getElem_map]
        · rename_i hk
          refine Full.pure ?_
          change (0 : ℤ) = _
          unfold Naive.elemAt
          split
          · rw [List.getD_eq_default]
            rw [digits_eq, List.length_map]; omega
          · rfl
      · cases hx
    · have : myMatmul a b = matmul a b := by
        cases a <;> cases b <;> first | rfl | exact absurd ⟨⟨_, rfl⟩, _, rfl⟩ hnn
      rw [this]
      exact T fun i n hi hn => hnn ⟨⟨i, by subst hi; exact ha.num_inv⟩, n, by subst hn; exact hb.num_inv⟩

end Enum
end PythonDice
