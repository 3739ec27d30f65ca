import Verif.Proofs.NaiveLaw
import Verif.Proofs.NaiveFull
import Verif.Props.Expr

/-! Operations on dice with a law. -/

namespace PythonDice
open Spec
open Spec.Naive (Law Val mean sure push andThen uniform draws support)

namespace Enum

/-- The object is the value. -/
def Rep : Obj → Val → Prop
  | .num a, .num b => a = b
  | .seq s, .seq t => s = t
  | .blank a, .blank b => a = b
  | .rv r, .die l p => DieRep r l ∧ ∀ k b, p = some (k, b) → r.source.1 = k ∧ DieRep r.source.2 b
  | _, _ => False

theorem Rep.one {r : RV ℤ} {l : Law} (h : DieRep r l) (hs : r.src = none) : Rep (.rv r) (Spec.Naive.one l) := by
  refine ⟨h, fun k b e => ?_⟩
  cases e
  rw [RV.source, hs]
  exact ⟨rfl, h⟩

theorem Rep.num_inv {o : Obj} {n : ℤ} (h : Rep o (.num n)) : o = .num n := by
  cases o <;> first | exact absurd h id | exact congrArg Obj.num h

theorem Rep.seq_inv {o : Obj} {s : List ℤ} (h : Rep o (.seq s)) : o = .seq s := by
  cases o <;> first | exact absurd h id | exact congrArg Obj.seq h

theorem Rep.blank_inv {o : Obj} {b : Bool} (h : Rep o (.blank b)) : o = .blank b := by
  cases o <;> first | exact absurd h id | exact congrArg Obj.blank h

theorem Rep.die_inv {o : Obj} {l : Law} {p : Option (ℕ × Law)} (h : Rep o (.die l p)) :
    ∃ r, o = .rv r ∧ DieRep r l ∧ ∀ k b, p = some (k, b) → r.source.1 = k ∧ DieRep r.source.2 b := by
  cases o with
  | rv r => exact ⟨r, rfl, h⟩
  | num => exact absurd h id
  | seq => exact absurd h id
  | blank => exact absurd h id

/-! ## Operations on outcomes -/

theorem mapVals_rep {st : Settings} {d r : RV ℤ} {l : Law} {op : ℤ → Except Err ℤ} {F : ℤ → ℤ} (hd : DieRep d l)
    (hF : ∀ x z, op x = .ok z → z = F x) (h : RV.mapVals st d op = .ok r) : DieRep r (push F l) ∧ r.src = none := by
  have hF' : ∀ x ∈ d.vals, op x = .ok (F x) := by
    intro x hx
    cases e : op x with
    | ok z => rw [hF x z e]
    | error err =>
      exfalso
      obtain ⟨e', he'⟩ := RV.mapM_error hx e
      unfold RV.mapVals at h
      rw [he'] at h
      cases h
  obtain ⟨r', h1, h2, h3, h4, _, h6, h7⟩ := mapVals_spec st hd.proper op F hF'
  rw [h] at h1
  cases h1
  exact ⟨⟨h2, h3, h6 hd.nz, hd.pos.push F, fun f => by rw [h7, hd.law, mean_push]⟩, h4⟩

theorem convolve_rep {st : Settings} {a b r : RV ℤ} {l m : Law} {F : ℤ → ℤ → ℤ} (ha : DieRep a l) (hb : DieRep b m)
    (h0 : RV.convolveRV0 st a b F = .ok r) : DieRep r (andThen l fun x => push (F x) m) ∧ r.src = none := by
  have law := RV.convolveRV0_Ex h0 ha.proper.pos hb.proper.pos
  have hm := RV.convolveRV0_mass h0 ha.proper.pos hb.proper.pos
  have hmass : mass (RV.toTuples (RV.rdictOf (RV.prodPairs a.pairs b.pairs F))) ≠ 0 := by
    rw [mass, RV.tuples_wsum, ← mass, RV.prodPairs_mass]
    exact mul_ne_zero ha.proper.pos hb.proper.pos
  have e : ∀ l : List (ℤ × ℕ), (l.map fun x => (x.2 : ℤ)).map Int.toNat = l.map (·.2) := by
    intro l; rw [List.map_map]; rfl
  refine ⟨DieRep.of ((RV.mk'_canonical h0).proper hm) (RV.mk'_canonical h0) (ha.pos.andThen fun x _ => hb.pos.push _) (fun f => ?_) fun v hv => ?_,
    mk'_src h0⟩
  · have := law f
    rw [mean_andThen, ← ha.law]
    simp only [mean_push, ← hb.law]
    simpa using this
  · have := mk'_support h0 ?_ hv
    · rw [RV.tuples_mem] at this
      obtain ⟨z, hz, rfl⟩ := List.mem_map.1 this
      unfold RV.prodPairs at hz
      simp only [List.mem_flatMap, List.mem_map] at hz
      obtain ⟨x, hx, y, hy, rfl⟩ := hz
      exact mem_fst_andThen.2 ⟨x.1, (ha.mem_vals _).1 (RV.mem_vals_of_pairs hx),
        mem_fst_push.2 ⟨y.1, (hb.mem_vals _).1 (RV.mem_vals_of_pairs hy), rfl⟩⟩
    · rw [e, List.zip_map']
      have : (fun a : ℤ × ℕ => (a.1, a.2)) = id := rfl
      rw [this, List.map_id]
      exact hmass

theorem binop_rep {st : Settings} {op : BinOp} {a b r : RV ℤ} {l m : Law} {F : ℤ → ℤ → ℤ} (ha : DieRep a l) (hb : DieRep b m)
    (hF : ∀ x y z, op.eval x y = .ok z → z = F x y) (h : RV.binop st op a b = .ok (r, false)) :
    DieRep r (andThen l fun x => push (F x) m) ∧ r.src = none := by
  have hF' : ∀ x ∈ a.vals, ∀ y ∈ b.vals, op.eval x y = .ok (F x y) := by
    intro x hx y hy
    cases e : op.eval x y with
    | ok z => rw [hF x y z e]
    | error err =>
      exfalso
      obtain ⟨e', he'⟩ := C05_binop_raises st op a b ha.proper.len hb.proper.len x y hx hy (by
        rintro ⟨z, hz⟩
        rw [← eval_iff, e] at hz
        cases hz)
      rw [h] at he'
      cases he'
  have hFp : ∀ x ∈ a.pairs, ∀ y ∈ b.pairs, op.eval x.1 y.1 = .ok (F x.1 y.1) := fun x hx y hy =>
    hF' _ (RV.mem_vals_of_pairs hx) _ (RV.mem_vals_of_pairs hy)
  exact convolve_rep ha hb (RV.convolveRV0_of hFp h)

/-! ## Binary operations -/

/-- The operation of the library. -/
def libOp : Compiler.BinOp → BinOp
  | .add => .add
  | .sub => .sub
  | .mul => .mul
  | .div => .floordiv
  | .pow => .pow
  | .lt => .lt
  | .gt => .gt
  | .eq => .eq
  | .ne => .ne
  | .le => .le
  | .ge => .ge
  | .and_ => .and_
  | .or_ => .or_
  | .at_ => .add

theorem libOp_isCmp (op : Compiler.BinOp) : (libOp op).isCmp = Spec.Naive.isCmp op := by cases op <;> rfl

theorem libOp_test (op : Compiler.BinOp) (x y : ℤ) : (libOp op).test x y = Spec.Naive.test op x y := by
  cases op <;> rfl

theorem swap_test (op : Compiler.BinOp) (x y : ℤ) : (libOp op).swap.test y x = Spec.Naive.test op x y := by
  cases op <;> simp [libOp, BinOp.swap, BinOp.test, Spec.Naive.test, eq_comm]

theorem eval_arith {op : Compiler.BinOp} (hop : op ≠ .at_) {x y z : ℤ} (h : (libOp op).eval x y = .ok z) : z = Spec.Naive.arith op x y := by
  cases op <;> simp only [libOp, BinOp.eval, Spec.Naive.arith, Spec.Naive.bit, Spec.Naive.test, ofBool] at h ⊢ <;>
    first
    | exact absurd rfl hop
    | (cases h; rfl)
    | (split at h <;> first | (cases h; done) | (cases h; rfl) | (split at h <;> cases h))

theorem swap_arith {op : Compiler.BinOp} (hop : op ≠ .at_) (hc : (libOp op).isCmp = true) {x y z : ℤ}
    (h : (libOp op).swap.eval y x = .ok z) : z = Spec.Naive.arith op x y := by
  rw [eval_swap _ hc] at h
  exact eval_arith hop h

theorem intBinop_arith {op : Compiler.BinOp} (hop : op ≠ .at_) {x y z : ℤ} (h : intBinop (libOp op) x y = .ok z) :
    z = Spec.Naive.arithNum false op x y := by
  cases op <;> first
    | exact absurd rfl hop
    | (cases h; rfl)
    | exact eval_arith (op := .div) (by simp) h
    | exact eval_arith (op := .pow) (by simp) h

theorem seqCmpNum_count (op : Compiler.BinOp) (s : List ℤ) (n : ℤ) :
    seqCmpNum (libOp op) s n = (s.countP fun x => Spec.Naive.test op x n : ℕ) := by
  rw [seqCmpNum, List.countP_eq_length_filter]
  simp only [libOp_test]

theorem seqCmpNum_count' (op : Compiler.BinOp) (s : List ℤ) (n : ℤ) :
    seqCmpNum (libOp op).swap s n = (s.countP fun y => Spec.Naive.test op n y : ℕ) := by
  rw [seqCmpNum, List.countP_eq_length_filter]
  simp only [swap_test]

theorem seqAll_eq (s t : List ℤ) : seqAll .eq s t = decide (s = t) := by
  unfold seqAll
  induction s generalizing t with
  | nil => cases t <;> simp [zipLongest, BinOp.testInf]
  | cons x s ih =>
    cases t with
    | nil => simp [zipLongest, BinOp.testInf]
    | cons y t =>
      have e : BinOp.testInf .eq (some x) (some y) = decide (x = y) := rfl
      simp only [zipLongest, List.all_cons, ih, e, List.cons.injEq]
      by_cases h1 : x = y <;> by_cases h2 : s = t <;> simp [h1, h2]

theorem seqAll_less {op : Compiler.BinOp} (h : op = .lt ∨ op = .le) (s t : List ℤ) :
    seqAll (libOp op) s t = (decide (s.length ≤ t.length) && (s.zip t).all fun p => Spec.Naive.test op p.1 p.2) := by
  unfold seqAll
  induction s generalizing t with
  | nil =>
    simp only [zipLongest, List.length_nil, Nat.zero_le, decide_true, List.zip_nil_left, List.all_nil, Bool.and_self, List.all_map,
      List.all_eq_true]
    intro y _
    rcases h with rfl | rfl <;> rfl
  | cons x s ih =>
    cases t with
    | nil =>
      rcases h with rfl | rfl <;> simp [zipLongest, BinOp.testInf, libOp]
    | cons y t =>
      simp only [zipLongest, List.all_cons, ih, List.length_cons, List.zip_cons_cons, Nat.add_le_add_iff_right]
      have : (libOp op).testInf (some x) (some y) = Spec.Naive.test op x y := by
        rw [← libOp_test]
        rcases h with rfl | rfl <;> rfl
      rw [this]
      cases Spec.Naive.test op x y <;> simp

theorem seqAll_greater {op : Compiler.BinOp} (h : op = .gt ∨ op = .ge) (s t : List ℤ) :
    seqAll (libOp op) s t = (decide (t.length ≤ s.length) && (s.zip t).all fun p => Spec.Naive.test op p.1 p.2) := by
  unfold seqAll
  induction s generalizing t with
  | nil =>
    cases t with
    | nil => rcases h with rfl | rfl <;> rfl
    | cons y t => rcases h with rfl | rfl <;> simp [zipLongest, BinOp.testInf, libOp]
  | cons x s ih =>
    cases t with
    | nil =>
      have : ∀ u : List ℤ, (zipLongest u []).all (fun xy => (libOp op).testInf xy.1 xy.2) = true := by
        intro u
        induction u with
        | nil => rfl
        | cons x u ih => rw [zipLongest, List.all_cons, ih]; rcases h with rfl | rfl <;> rfl
      rw [this]
      simp
    | cons y t =>
      simp only [zipLongest, List.all_cons, ih, List.length_cons, List.zip_cons_cons, Nat.add_le_add_iff_right]
      have : (libOp op).testInf (some x) (some y) = Spec.Naive.test op x y := by
        rw [← libOp_test]
        rcases h with rfl | rfl <;> rfl
      rw [this]
      cases Spec.Naive.test op x y <;> simp

theorem seqCmp_eq {op : Compiler.BinOp} (h : Spec.Naive.isCmp op = true) (s t : List ℤ) :
    seqCmpSeq (libOp op) s t = Spec.Naive.seqTest op s t := by
  cases op <;> try cases h
  · exact seqAll_less (.inl rfl) s t
  · exact seqAll_greater (.inl rfl) s t
  · exact seqAll_eq s t
  · change (!seqAll .eq s t) = decide (s ≠ t)
    rw [seqAll_eq]; simp
  · exact seqAll_less (.inr rfl) s t
  · exact seqAll_greater (.inr rfl) s t

theorem eval_possible {op : Compiler.BinOp} (x y : ℤ) (h : Spec.Naive.possible op x y = true) : ∃ z, (libOp op).eval x y = .ok z := by
  cases op <;> simp only [libOp, BinOp.eval, Spec.Naive.possible, decide_eq_true_eq] at h ⊢ <;> first
    | exact ⟨_, rfl⟩
    | (rw [if_neg h]; exact ⟨_, rfl⟩)
    | (rw [if_pos h]; exact ⟨_, rfl⟩)

theorem intBinop_possible {op : Compiler.BinOp} (x y : ℤ) (h : Spec.Naive.possible op x y = true) : ∃ z, intBinop (libOp op) x y = .ok z := by
  cases op <;> first
    | exact ⟨_, rfl⟩
    | exact eval_possible (op := .div) x y h
    | exact eval_possible (op := .pow) x y h

theorem fine_eval {op : Compiler.BinOp} {x y : ℤ} (h : Spec.Naive.possible op x y = true) : Fine ((libOp op).eval x y) := by
  obtain ⟨z, hz⟩ := eval_possible x y h
  exact .of_eq hz

theorem amounts_die {r : RV ℤ} {l : Law} (h : DieRep r l) {x : ℤ} (hx : x ∈ r.vals) (p : Option (ℕ × Law)) :
    x ∈ Spec.Naive.amounts (.die l p) := (h.mem_vals x).1 hx

theorem full_neg {I : Settings → Prop} {o : Obj} {v : Val} (h : Rep o v) : Full I (negObj o) fun x => Rep x (Spec.Naive.minus v) := by
  match o, v, h with
  | .num a, .num _, h => cases h; exact Full.pure rfl
  | .seq a, .seq _, h => cases h; exact Full.pure rfl
  | .blank a, .blank _, h => cases h; exact Full.pure rfl
  | .rv r, .die l p, h =>
    refine Full.map (P := fun q => DieRep q (push (fun x => -x) l) ∧ q.src = none) (Full.ofSettings (fun st q _ hq => ?_) ?_)
      fun q hq => Rep.one hq.1 hq.2
    · refine mapVals_rep h.1 (fun x z hz => ?_) hq
      simp only [BinOp.eval] at hz
      cases hz; ring
    · exact fun st _ => Fine.mapVals st h.1.proper fun x _ => ⟨0 - x, rfl⟩

theorem withBlank_rep {op : Compiler.BinOp} (hop : op ≠ .at_) (b : Bool) {o : Obj} {v : Val} (h : Rep o v) :
    Rep (blankR (libOp op) o b) (Spec.Naive.withBlank op b v) := by
  cases op <;> cases b <;> first
    | exact absurd rfl hop
    | exact h
    | rfl
    | (match o, v, h with
      | .num a, .num _, h => exact h
      | .seq a, .seq _, h => exact h
      | .blank a, .blank _, h => rfl
      | .rv r, .die l p, h => exact h)

theorem full_blankL {I : Settings → Prop} {op : Compiler.BinOp} (hop : op ≠ .at_) (b : Bool) {o : Obj} {v : Val} (h : Rep o v) :
    Full I (blankL (libOp op) b o) fun x =>
      Rep x (if op = .sub ∧ b = false then Spec.Naive.minus v else Spec.Naive.withBlank op b v) := by
  by_cases hs : op = .sub
  · subst hs
    cases b
    · exact full_neg h
    · exact Full.pure rfl
  · rw [if_neg (fun hh => hs hh.1)]
    have : blankL (libOp op) b o = pure (blankR (libOp op) o b) := by
      cases op <;> first | rfl | exact absurd rfl hs
    rw [this]
    exact Full.pure (withBlank_rep hop b h)

theorem full_numBinop {I : Settings → Prop} {op : Compiler.BinOp} (hop : op ≠ .at_) (x : ℤ) {o : Obj} {v : Val} (h : Rep o v)
    (hp : ∀ y ∈ Spec.Naive.amounts v, Spec.Naive.possible op x y = true) :
    Full I (numBinop (libOp op) x o) fun y => Rep y (Spec.Naive.binary false op (.num x) v) := by
  match o, v, h with
  | .num a, .num _, h =>
    cases h
    exact Full.map (P := fun z => z = Spec.Naive.arithNum false op x a) (Full.ofSettings (fun _ z _ hz => intBinop_arith hop hz)
      fun st _ => (intBinop_possible x a (hp a (by simp [Spec.Naive.amounts]))).elim fun _ e => .of_eq e) fun z hz => hz
  | .seq s, .seq _, h =>
    cases h
    simp only [numBinop, Spec.Naive.binary, libOp_isCmp]
    split
    · exact Full.pure (seqCmpNum_count' op s x)
    · exact Full.map (P := fun z => z = Spec.Naive.arith op x s.sum) (Full.ofSettings (fun _ z _ hz => eval_arith hop hz)
        fun st _ => fine_eval (hp s.sum (by simp [Spec.Naive.amounts]))) fun z hz => hz
  | .blank b, .blank _, h =>
    cases h
    exact Full.pure (withBlank_rep hop b (o := .num x) (v := .num x) rfl)
  | .rv r, .die l p, h =>
    simp only [numBinop]
    split
    · rename_i hc
      refine Full.map (P := fun q => DieRep q (push (fun y => Spec.Naive.arith op x y) l) ∧ q.src = none)
        (Full.ofSettings (fun st q _ hq => ?_) fun st _ => Fine.mapVals st h.1.proper fun y hy => ?_) fun q hq => Rep.one hq.1 hq.2
      · exact mapVals_rep h.1 (fun y z hz => swap_arith hop hc hz) hq
      · rw [eval_swap _ hc]
        exact eval_possible x y (hp y (amounts_die h.1 hy p))
    · refine Full.map (P := fun q => DieRep q (push (fun y => Spec.Naive.arith op x y) l) ∧ q.src = none)
        (Full.ofSettings (fun st q _ hq => ?_) fun st _ => Fine.mapVals st h.1.proper fun y hy => ?_) fun q hq => Rep.one hq.1 hq.2
      · exact mapVals_rep h.1 (fun y z hz => eval_arith hop hz) hq
      · exact eval_possible x y (hp y (amounts_die h.1 hy p))

theorem full_binop {I : Settings → Prop} {op : Compiler.BinOp} (hop : op ≠ .at_) {a b : Obj} {u v : Val} (ha : Rep a u) (hb : Rep b v)
    (hp : ∀ x ∈ Spec.Naive.amounts u, ∀ y ∈ Spec.Naive.amounts v, Spec.Naive.possible op x y = true) :
    Full I (binop (libOp op) a b) fun y => Rep y (Spec.Naive.binary false op u v) := by
  match a, u, ha with
  | .num x, .num _, ha => cases ha; exact full_numBinop hop x hb (hp x (by simp [Spec.Naive.amounts]))
  | .blank c, .blank _, ha =>
    cases ha
    have : binop (libOp op) (.blank c) b = blankL (libOp op) c b := rfl
    rw [this]
    exact full_blankL hop c hb
  | .seq s, .seq _, ha =>
    cases ha
    match b, v, hb with
    | .num y, .num _, hb =>
      cases hb
      simp only [binop, Spec.Naive.binary, libOp_isCmp]
      split
      · exact Full.pure (seqCmpNum_count op s y)
      · exact Full.map (P := fun z => z = Spec.Naive.arith op s.sum y) (Full.ofSettings (fun _ z _ hz => eval_arith hop hz)
          fun st _ => fine_eval (hp _ (by simp [Spec.Naive.amounts]) _ (by simp [Spec.Naive.amounts]))) fun z hz => hz
    | .seq t, .seq _, hb =>
      cases hb
      simp only [binop, Spec.Naive.binary, libOp_isCmp]
      split
      · rename_i hc
        rw [seqCmp_eq hc]
        exact Full.pure rfl
      · exact Full.map (P := fun z => z = Spec.Naive.arith op s.sum t.sum) (Full.ofSettings (fun _ z _ hz => eval_arith hop hz)
          fun st _ => fine_eval (hp _ (by simp [Spec.Naive.amounts]) _ (by simp [Spec.Naive.amounts]))) fun z hz => hz
    | .blank c, .blank _, hb => cases hb; exact full_numBinop hop s.sum (o := .blank c) (v := .blank c) rfl (hp _ (by simp [Spec.Naive.amounts]))
    | .rv r, .die l p, hb => exact full_numBinop hop s.sum (o := .rv r) (v := .die l p) hb (hp _ (by simp [Spec.Naive.amounts]))
  | .rv r, .die l p, ha =>
    match b, v, hb with
    | .num y, .num _, hb =>
      cases hb
      refine Full.map (P := fun q => DieRep q (push (fun x => Spec.Naive.arith op x y) l) ∧ q.src = none)
        (Full.ofSettings (fun st q _ hq => ?_) fun st _ => Fine.mapVals st ha.1.proper fun x hx => ?_) fun q hq => Rep.one hq.1 hq.2
      · exact mapVals_rep ha.1 (fun x z hz => eval_arith hop hz) hq
      · exact eval_possible _ _ (hp _ (amounts_die ha.1 hx p) _ (by simp [Spec.Naive.amounts]))
    | .seq t, .seq _, hb =>
      cases hb
      refine Full.map (P := fun q => DieRep q (push (fun x => Spec.Naive.arith op x t.sum) l) ∧ q.src = none)
        (Full.ofSettings (fun st q _ hq => ?_) fun st _ => Fine.mapVals st ha.1.proper fun x hx => ?_) fun q hq => Rep.one hq.1 hq.2
      · exact mapVals_rep ha.1 (fun x z hz => eval_arith hop hz) hq
      · exact eval_possible _ _ (hp _ (amounts_die ha.1 hx p) _ (by simp [Spec.Naive.amounts]))
    | .blank c, .blank _, hb => cases hb; exact Full.pure (withBlank_rep hop c (o := .rv r) (v := .die l p) ha)
    | .rv q, .die m p', hb =>
      refine Full.map (P := fun q => DieRep q (andThen l fun x => push (fun y => Spec.Naive.arith op x y) m) ∧ q.src = none)
        (Full.ofLimited (fun st q _ hq => ?_) fun st _ => Fine.binop st _ fun x hx y hy => ?_) fun q hq => Rep.one hq.1 hq.2
      · exact binop_rep ha.1 hb.1 (fun x y z hz => eval_arith hop hz) hq
      · exact eval_possible _ _ (hp _ (amounts_die ha.1 hx p) _ (amounts_die hb.1 hy p'))

theorem binary_ints {op : Compiler.BinOp} (u v : Val) (h : (op ≠ .and_ ∧ op ≠ .or_) ∨ ∀ x y, ¬ (u = .num x ∧ v = .num y)) :
    Spec.Naive.binary true op u v = Spec.Naive.binary false op u v := by
  cases u <;> cases v <;> try rfl
  rename_i x y
  rcases h with ⟨h1, h2⟩ | h
  · cases op <;> first | rfl | exact absurd rfl h1 | exact absurd rfl h2
  · exact absurd ⟨rfl, rfl⟩ (h x y)

theorem full_runBin {I : Settings → Prop} (ints : Bool) {op : Compiler.BinOp} (hop : op ≠ .at_) {a b : Obj} {u v : Val} (ha : Rep a u)
    (hb : Rep b v) (hp : ∀ x ∈ Spec.Naive.amounts u, ∀ y ∈ Spec.Naive.amounts v, Spec.Naive.possible op x y = true) :
    Full I (runBin ints op a b) fun y => Rep y (Spec.Naive.binary ints op u v) := by
  have T := full_binop (I := I) hop ha hb hp
  cases ints with
  | false => cases op <;> first | exact T | exact absurd rfl hop
  | true =>
    by_cases h1 : op = .and_
    · subst h1
      by_cases h2 : ∃ x y, u = .num x ∧ v = .num y
      · obtain ⟨x, y, rfl, rfl⟩ := h2
        rw [ha.num_inv, hb.num_inv]
        refine Full.pure ?_
        change (if x ≠ 0 ∧ y ≠ 0 then (1 : ℤ) else 0) = Spec.Naive.bit (decide (x ≠ 0 ∧ y ≠ 0))
        by_cases h : x ≠ 0 ∧ y ≠ 0 <;> simp [Spec.Naive.bit]
      · rw [binary_ints u v (.inr fun x y e => h2 ⟨x, y, e⟩)]
        have : runBin true .and_ a b = binop .and_ a b := by
          change myAnd a b = _
          match a, u, ha with
          | .num x, .num _, ha =>
            cases ha
            match b, v, hb with
            | .num y, .num _, hb => cases hb; exact absurd ⟨x, y, rfl, rfl⟩ h2
            | .seq _, .seq _, hb => rfl
            | .blank _, .blank _, hb => rfl
            | .rv _, .die _ _, hb => rfl
          | .seq _, .seq _, ha => rfl
          | .blank _, .blank _, ha => rfl
          | .rv _, .die _ _, ha => rfl
        rw [this]
        exact T
    · by_cases h1' : op = .or_
      · subst h1'
        by_cases h2 : ∃ x y, u = .num x ∧ v = .num y
        · obtain ⟨x, y, rfl, rfl⟩ := h2
          rw [ha.num_inv, hb.num_inv]
          refine Full.pure ?_
          change (if x ≠ 0 ∨ y ≠ 0 then (1 : ℤ) else 0) = Spec.Naive.bit (decide (x ≠ 0 ∨ y ≠ 0))
          by_cases h : x ≠ 0 ∨ y ≠ 0 <;> simp [Spec.Naive.bit]
        · rw [binary_ints u v (.inr fun x y e => h2 ⟨x, y, e⟩)]
          have : runBin true .or_ a b = binop .or_ a b := by
            change myOr a b = _
            match a, u, ha with
            | .num x, .num _, ha =>
              cases ha
              match b, v, hb with
              | .num y, .num _, hb => cases hb; exact absurd ⟨x, y, rfl, rfl⟩ h2
              | .seq _, .seq _, hb => rfl
              | .blank _, .blank _, hb => rfl
              | .rv _, .die _ _, hb => rfl
            | .seq _, .seq _, ha => rfl
            | .blank _, .blank _, ha => rfl
            | .rv _, .die _ _, ha => rfl
          rw [this]
          exact T
      · rw [binary_ints u v (.inl ⟨h1, h1'⟩)]
        cases op <;> first | exact T | exact absurd rfl hop | exact absurd rfl h1 | exact absurd rfl h1'

end Enum
end PythonDice
