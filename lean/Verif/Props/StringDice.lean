import Verif.Model.StringDice
import Verif.Spec.Symbol
import Verif.Props.StringVal
import Verif.Proofs.Order

/-!
# C69: adding and rolling dice with string outcomes
-/

namespace PythonDice

open Spec Spec.Symbol

/-! ## Contents -/

theorem plus_count (c d : Content) (k : List Char) : count (plus c d) k = both (count c k) (count d k) := by
  match c, d with
  | .inl m, .inl n =>
    simp only [plus, count]
    split <;> rfl
  | .inl _, .inr _ => rfl
  | .inr _, .inl _ => rfl
  | .inr _, .inr _ => rfl

theorem both_assoc (p q r : Option ℤ) : both (both p q) r = both p (both q r) := by
  cases p <;> cases q <;> cases r <;> simp [both, add_assoc]

/-- Is it a number? -/
def isNumber : Content → Bool
  | .inl _ => true
  | .inr _ => false

theorem content_ext {c d : Content} (h1 : isNumber c = isNumber d) (h2 : ∀ k, count c k = count d k) : c = d := by
  match c, d with
  | .inl m, .inl n =>
    have := h2 "_UNIQUE_STRING".toList
    simp only [count, if_true] at this
    cases this
    rfl
  | .inl _, .inr _ => cases h1
  | .inr _, .inl _ => cases h1
  | .inr c, .inr d => exact congrArg Sum.inr (funext h2)

theorem isNumber_plus (c d : Content) : isNumber (plus c d) = (isNumber c && isNumber d) := by
  match c, d with
  | .inl _, .inl _ => rfl
  | .inl _, .inr _ => rfl
  | .inr _, .inl _ => rfl
  | .inr _, .inr _ => rfl

theorem plus_assoc (a b c : Content) : plus (plus a b) c = plus a (plus b c) := by
  apply content_ext
  · simp only [isNumber_plus, Bool.and_assoc]
  · intro k
    simp only [plus_count, both_assoc]

theorem total_append {xs ys : List Content} (hx : xs ≠ []) (hy : ys ≠ []) : total (xs ++ ys) = plus (total xs) (total ys) := by
  induction xs with
  | nil => exact absurd rfl hx
  | cons x xs ih =>
    match xs, ih with
    | [], _ =>
      match ys, hy with
      | y :: ys, _ => rfl
    | x' :: xs, ih =>
      show plus x (total ((x' :: xs) ++ ys)) = plus (plus x (total (x' :: xs))) (total ys)
      rw [ih (by simp), plus_assoc]

theorem content_count {a : Out} (k : List Char) : count a.content k = a.lift.coef k := by
  match a with
  | .num n => exact (coef_fromConst n k).symm
  | .str s => rfl

theorem content_add {a b : Out} (ha : BuiltOut a) (hb : BuiltOut b) : (a.add b).content = plus a.content b.content := by
  apply content_ext
  · rw [isNumber_plus]
    cases a <;> cases b <;> rfl
  · intro k
    rw [plus_count, content_count, content_count, content_count, coef_lift_add ha hb]
    cases a.lift.coef k <;> cases b.lift.coef k <;> rfl

theorem content_canon {a b : Out} (ha : BuiltOut a) (hb : BuiltOut b) : a.content = b.content ↔ a.canon = b.canon := by
  rw [← eq_iff_content ha hb, Out.eq_iff ha.wf hb.wf]

/-! ## The law of a die -/

/-- The mean of a function of the content of an outcome. -/
def Law (l : List (Out × ℕ)) (f : Content → ℚ) : ℚ := Ex l fun a => f a.content

/-- Outcomes that a program can build. -/
def AllBuilt (r : RV Out) : Prop := ∀ a ∈ r.vals, BuiltOut a

theorem AllBuilt.pairs {r : RV Out} (h : AllBuilt r) : ∀ x ∈ r.pairs, BuiltOut x.1 := fun _ hx => h _ (List.of_mem_zip hx).1

/-- A function of the content is a function of the canonical form, on a list of outcomes. -/
theorem wsum_canon (l : List (Out × ℕ)) (hl : ∀ x ∈ l, BuiltOut x.1) (g : Out.Canon → ℚ) :
    wsum (l.map fun x => (x.1.canon, x.2)) g = wsum l fun a => g a.canon := by
  induction l with
  | nil => rfl
  | cons x l ih =>
    rw [List.map_cons, wsum_cons, wsum_cons, ih fun y hy => hl y (List.mem_cons_of_mem _ hy)]

open Classical in
/-- The function of canonical forms that a function of contents is. -/
noncomputable def onCanon (f : Content → ℚ) (c : Out.Canon) : ℚ := if h : ∃ a, BuiltOut a ∧ a.canon = c then f h.choose.content else 0

theorem onCanon_canon (f : Content → ℚ) {a : Out} (ha : BuiltOut a) : onCanon f a.canon = f a.content := by
  have h : ∃ b, BuiltOut b ∧ b.canon = a.canon := ⟨a, ha, rfl⟩
  rw [onCanon, dif_pos h]
  exact congrArg f ((content_canon h.choose_spec.1 ha).2 h.choose_spec.2)

/-- Truncation changes nothing if it succeeds. -/
theorem mkRV_noTrunc {st : Settings} {vals : List Out} {probs : List ℤ} {r : RV Out} (h : Out.mkRV st vals probs = .ok r) :
    Out.mkRV st vals probs (some false) = .ok r := by
  unfold Out.mkRV at h ⊢
  by_cases hl : vals.length = probs.length
  · rw [if_neg (not_not.2 hl)] at h ⊢
    cases ht : st.rvTrunc
    · simpa [ht] using h
    · rcases Out.mapM_trunc vals with ⟨e, h1, -⟩ | ⟨h1, -⟩
      · simp only [Option.getD_none, ht, if_true, h1] at h
        cases h
      · simp only [Option.getD_none, ht, if_true, h1] at h
        exact h
  · rw [if_pos hl] at h
    cases h

/-- The constructor keeps laws. -/
theorem mkRV_law {st : Settings} {l : List (Out × ℕ)} {r : RV Out} (hl : ∀ x ∈ l, BuiltOut x.1)
    (h : Out.mkRV st (l.map fun x => x.1) (l.map fun x => (x.2 : ℤ)) = .ok r) (hm : mass l ≠ 0) :
    AllBuilt r ∧ r.vals.length = r.probs.length ∧ r.vals.Pairwise (fun a b => Out.cmp .lt a b = true) ∧ mass r.pairs ≠ 0 ∧
      ∀ f, Law r.pairs f = Law l f := by
  have h' := mkRV_noTrunc h
  have hv : ∀ a ∈ l.map fun x => x.1, BuiltOut a := by
    intro a ha
    obtain ⟨x, hx, rfl⟩ := List.mem_map.1 ha
    exact hl x hx
  have hpos : ∃ x ∈ l.map fun x => (x.2 : ℤ), 0 < x := by
    by_contra hc
    push Not at hc
    apply hm
    rw [mass, wsum_congr (g := fun _ => 0) fun x hx h0 => ?_, wsum_const, zero_mul]
    exfalso
    have := hc _ (List.mem_map_of_mem (f := fun x => (x.2 : ℤ)) hx)
    omega
  obtain ⟨h1, h2, h3, -⟩ := C32_dice st _ _ r hv h' hpos
  have hb : AllBuilt r := fun a ha => hv a (h2 a ha)
  have hk : RV.mk' st ((l.map fun x => x.1).map Out.canon) (l.map fun x => (x.2 : ℤ)) (some false) = .ok (Out.canonRV r) := by
    rw [← Out.mkRV_canon st _ _ (some false) fun a ha => (hv a ha).wf, h']; rfl
  have hz : ((l.map fun x => x.1).map Out.canon).zip ((l.map fun x => (x.2 : ℤ)).map Int.toNat) = l.map fun x => (x.1.canon, x.2) := by
    clear hk h h' hv hpos h1 h2 h3 hm hl
    induction l with
    | nil => rfl
    | cons x l ih => simp only [List.map_cons, List.zip_cons_cons, ih, Int.toNat_natCast]
  have hp : (Out.canonRV r).pairs = r.pairs.map fun x => (x.1.canon, x.2) := by
    simp only [RV.pairs, Out.canonRV, List.zip_map_left]
    rfl
  have hm' : mass (l.map fun x => (x.1.canon, x.2)) ≠ 0 := by
    rw [mass, wsum_canon l hl]
    exact hm
  have hE := RV.mk'_Ex hk rfl (by rw [hz]; exact hm')
  have hmr : mass r.pairs ≠ 0 := by
    have := mass_ne_of_Ex (l := (Out.canonRV r).pairs) (by rw [hE, hz, Ex_const hm'])
    rw [hp, mass, wsum_canon _ hb.pairs] at this
    exact this
  refine ⟨hb, h3, h1, hmr, fun f => ?_⟩
  have := hE (onCanon f)
  rw [hz, hp] at this
  rw [Ex, Ex, mass, mass, wsum_canon _ hb.pairs, wsum_canon _ hb.pairs, wsum_canon _ hl, wsum_canon _ hl] at this
  unfold Law Ex
  rw [wsum_congr (g := fun a => onCanon f a.canon) fun x hx _ => (onCanon_canon f (hb.pairs x hx)).symm,
    wsum_congr (l := l) (g := fun a => onCanon f a.canon) fun x hx _ => (onCanon_canon f (hl x hx)).symm]
  exact this

/-! ## Sums -/

variable {H : Type} [DecidableEq H]

theorem rdictSet_wsum (h : Out → H) (d : List (Out × ℕ)) (k : Out) (v : ℕ) (hd : ∀ x ∈ d, BuiltOut x.1) (hk : BuiltOut k) (f : Content → ℚ) :
    (∀ x ∈ Out.rdictSet h d k v, BuiltOut x.1) ∧
      wsum (Out.rdictSet h d k v) (fun a => f a.content) = wsum d (fun a => f a.content) + v * f k.content := by
  induction d with
  | nil =>
    refine ⟨fun x hx => ?_, by simp [Out.rdictSet]⟩
    rw [Out.rdictSet, List.mem_singleton] at hx
    subst hx
    exact hk
  | cons y d ih =>
    obtain ⟨k', v'⟩ := y
    have hk' := hd (k', v') (by simp)
    obtain ⟨i1, i2⟩ := ih fun x hx => hd x (List.mem_cons_of_mem _ hx)
    rw [Out.rdictSet]
    split
    · rename_i he
      refine ⟨fun x hx => ?_, ?_⟩
      · rcases List.mem_cons.1 hx with rfl | hx
        · exact hk'
        · exact hd x (List.mem_cons_of_mem _ hx)
      · rw [wsum_cons, wsum_cons, (eq_iff_content hk' hk).1 he.2]
        push_cast
        ring
    · refine ⟨fun x hx => ?_, ?_⟩
      · rcases List.mem_cons.1 hx with rfl | hx
        · exact hk'
        · exact i1 x hx
      · rw [wsum_cons, wsum_cons, i2]
        ring

theorem foldl_wsum (h : Out → H) (l d : List (Out × ℕ)) (hd : ∀ x ∈ d, BuiltOut x.1) (hl : ∀ x ∈ l, BuiltOut x.1) :
    (∀ x ∈ l.foldl (fun d kv => Out.rdictSet h d kv.1 kv.2) d, BuiltOut x.1) ∧ ∀ f : Content → ℚ,
      wsum (l.foldl (fun d kv => Out.rdictSet h d kv.1 kv.2) d) (fun a => f a.content) =
        wsum d (fun a => f a.content) + wsum l (fun a => f a.content) := by
  induction l generalizing d with
  | nil => exact ⟨hd, fun f => by simp⟩
  | cons x l ih =>
    have hx := hl x (by simp)
    obtain ⟨i1, i2⟩ := ih (Out.rdictSet h d x.1 x.2) (rdictSet_wsum h d x.1 x.2 hd hx fun _ => 0).1 fun y hy => hl y (List.mem_cons_of_mem _ hy)
    refine ⟨i1, fun f => ?_⟩
    rw [List.foldl_cons, i2, (rdictSet_wsum h d x.1 x.2 hd hx f).2, wsum_cons]
    ring

theorem wsum_products (a b : List (Out × ℕ)) (g : Out → ℚ) :
    wsum (a.flatMap fun x => b.map fun y => (x.1.add y.1, x.2 * y.2)) g = wsum a fun x => wsum b fun y => g (x.add y) := by
  induction a with
  | nil => rfl
  | cons x a ih =>
    rw [List.flatMap_cons, wsum_append, wsum_cons, ih]
    congr 1
    clear ih
    induction b with
    | nil => simp
    | cons y b ih => rw [List.map_cons, wsum_cons, wsum_cons, ih]; push_cast; ring

theorem addItems_wsum (h : Out → H) {a b : List (Out × ℕ)} (ha : ∀ x ∈ a, BuiltOut x.1) (hb : ∀ x ∈ b, BuiltOut x.1) :
    (∀ x ∈ Out.toTuples (Out.addItems h a b), BuiltOut x.1) ∧ ∀ f : Content → ℚ,
      wsum (Out.toTuples (Out.addItems h a b)) (fun z => f z.content) = wsum a fun x => wsum b fun y => f (x.add y).content := by
  have hl : ∀ x ∈ a.flatMap fun x => b.map fun y => (x.1.add y.1, x.2 * y.2), BuiltOut x.1 := by
    intro z hz
    obtain ⟨x, hx, hz⟩ := List.mem_flatMap.1 hz
    obtain ⟨y, hy, rfl⟩ := List.mem_map.1 hz
    exact (ha x hx).add (hb y hy)
  obtain ⟨h1, h2⟩ := foldl_wsum h _ [] (by simp) hl
  have hp : (Out.toTuples (Out.addItems h a b)).Perm (Out.addItems h a b) := List.perm_insertionSort _ _
  refine ⟨fun x hx => h1 x (hp.subset hx), fun f => ?_⟩
  rw [wsum_perm hp]
  exact (h2 f).trans (by rw [wsum_nil, zero_add, wsum_products])

/-- A die with outcomes that a program can build, some of them possible. -/
structure Proper (r : RV Out) : Prop where
  built : AllBuilt r
  mass : mass r.pairs ≠ 0

/-- A die with outcomes in ascending order, each once. -/
def Neat (r : RV Out) : Prop := r.vals.length = r.probs.length ∧ r.vals.Pairwise (fun a b => Out.cmp .lt a b = true)

theorem addRV_law (h : Out → H) {st : Settings} {a b r : RV Out} (ha : Proper a) (hb : Proper b) (hr : Out.addRV h st a b = .ok (r, false)) :
    Proper r ∧ Neat r ∧ ∀ f, Law r.pairs f = Law a.pairs fun c => Law b.pairs fun d => f (plus c d) := by
  obtain ⟨h1, h2⟩ := addItems_wsum h ha.built.pairs hb.built.pairs
  unfold Out.addRV at hr
  simp only [bind, Except.bind] at hr
  cases hq : Out.mkRV st ((Out.toTuples (Out.addItems h a.pairs b.pairs)).map fun x => x.1)
      ((Out.toTuples (Out.addItems h a.pairs b.pairs)).map fun x => (x.2 : ℤ)) with
  | error e => rw [hq] at hr; cases hr
  | ok q =>
    rw [hq] at hr
    have hqr : q = r := by
      simp only [RV.probLimit] at hr
      split at hr
      · cases hr; rfl
      · cases hn : RV.normConst q.sumProbs with
        | error e => rw [hn] at hr; cases hr
        | ok nc =>
          rw [hn] at hr
          simp only [bind, Except.bind] at hr
          split at hr <;> cases hr
    subst hqr
    have key : ∀ f : Content → ℚ, wsum (Out.toTuples (Out.addItems h a.pairs b.pairs)) (fun z => f z.content) =
        wsum a.pairs fun x => wsum b.pairs fun y => f (plus x.content y.content) := by
      intro f
      rw [h2 f]
      refine wsum_congr fun x hx _ => wsum_congr fun y hy _ => ?_
      rw [content_add (ha.built.pairs x hx) (hb.built.pairs y hy)]
    have hmass : Spec.mass (Out.toTuples (Out.addItems h a.pairs b.pairs)) = Spec.mass a.pairs * Spec.mass b.pairs := by
      rw [Spec.mass, key fun _ => 1, wsum_const, mul_comm]
      rfl
    have hm : Spec.mass (Out.toTuples (Out.addItems h a.pairs b.pairs)) ≠ 0 := by
      rw [hmass]
      exact mul_ne_zero ha.mass hb.mass
    obtain ⟨g1, g2, g3, g4, g5⟩ := mkRV_law h1 hq hm
    refine ⟨⟨g1, g4⟩, ⟨g2, g3⟩, fun f => ?_⟩
    rw [g5, Law, Ex, key, hmass]
    unfold Law Ex
    rw [div_mul_eq_div_div, div_right_comm]
    congr 1
    have : (fun x : Out => wsum b.pairs (fun y => f (plus x.content y.content)) / Spec.mass b.pairs) =
        fun x => (Spec.mass b.pairs)⁻¹ * wsum b.pairs fun y => f (plus x.content y.content) := by
      funext x
      rw [div_eq_inv_mul]
    rw [this, wsum_mul_left, div_eq_inv_mul]

/-! ## Rolling -/

/-- The contents of outcomes, with their weights. -/
def contents (vals : List Out) (probs : List ℕ) : List (Content × ℕ) := (vals.map Out.content).zip probs

theorem contents_pairs (r : RV Out) : contents r.vals r.probs = r.pairs.map fun x => (x.1.content, x.2) := by
  simp only [contents, RV.pairs, List.zip_map_left]
  rfl

theorem Law_contents (r : RV Out) (f : Content → ℚ) : Law r.pairs f = Ex (contents r.vals r.probs) f := by
  rw [contents_pairs]
  simp only [Law, Ex, mass, wsum_map]

/-- The law of the sum of `n` independent draws from outcomes with weights. -/
def sumLaw (n : ℕ) (vals : List Out) (probs : List ℕ) (f : Content → ℚ) : ℚ := ExN n (contents vals probs) fun cs => f (total cs)

/-- A memo table that holds what it should. -/
def TableOk (t : Out.Table) : Prop :=
  ∀ e ∈ t.memo, e.2.src = some e.1 ∧ (∀ a ∈ e.1.2.1, BuiltOut a) ∧ Proper e.2 ∧ Neat e.2 ∧ ∀ f, Law e.2.pairs f = sumLaw e.1.1 e.1.2.1 e.1.2.2 f

theorem keyEq_sumLaw {a b : Out.Key} (ha : ∀ x ∈ a.2.1, BuiltOut x) (hb : ∀ x ∈ b.2.1, BuiltOut x) (h : Out.keyEq a b = true) :
    sumLaw a.1 a.2.1 a.2.2 = sumLaw b.1 b.2.1 b.2.2 := by
  obtain ⟨n, vs, ps⟩ := a
  obtain ⟨m, ws, qs⟩ := b
  simp only [Out.keyEq, Bool.and_eq_true, decide_eq_true_eq] at h
  obtain ⟨⟨⟨rfl, hl⟩, hv⟩, rfl⟩ := h
  have : vs.map Out.content = ws.map Out.content := by
    simp only at ha hb hl hv
    clear ps
    induction vs generalizing ws with
    | nil =>
      cases ws with
      | nil => rfl
      | cons w ws => cases hl
    | cons v vs ih =>
      cases ws with
      | nil => cases hl
      | cons w ws =>
        rw [List.zip_cons_cons, List.all_cons, Bool.and_eq_true] at hv
        rw [List.map_cons, List.map_cons, (eq_iff_content (ha v (by simp)) (hb w (by simp))).1 hv.1,
          ih (fun x hx => ha x (List.mem_cons_of_mem _ hx)) ws hv.2 (by simpa using hl) (fun x hx => hb x (List.mem_cons_of_mem _ hx))]
  funext f
  simp only [sumLaw, contents, this]

theorem sumLaw_add {a b : ℕ} (ha : a ≠ 0) (hb : b ≠ 0) (vs : List Out) (ps : List ℕ) (f : Content → ℚ) :
    sumLaw (a + b) vs ps f = sumLaw a vs ps fun c => sumLaw b vs ps fun d => f (plus c d) := by
  unfold sumLaw
  rw [ExN_add]
  refine ExN_congr fun xs hx => ExN_congr fun ys hy => ?_
  rw [total_append (by rintro rfl; exact ha hx.symm) (by rintro rfl; exact hb hy.symm)]

theorem addT_law {h : Out → H} {st : Settings} {a b r : RV Out} {t t' : Out.Table} (hr : Out.addT h st a b t = .ok (r, t')) (hw : t'.warns = 0) :
    t.warns = 0 ∧ t'.memo = t.memo ∧ Out.addRV h st a b = .ok (r, false) := by
  unfold Out.addT at hr
  cases hq : Out.addRV h st a b with
  | error e => rw [hq] at hr; cases hr
  | ok q =>
    rw [hq] at hr
    obtain ⟨q, w⟩ := q
    cases hr
    cases w
    · exact ⟨hw, rfl, rfl⟩
    · simp at hw

theorem good_src {r : RV Out} (h : Proper r) (s : Option Out.Key) : Proper { r with src := s } := ⟨h.built, h.mass⟩

theorem rollNat_law {K : Type} [DecidableEq K] (h : Out → H) (hk : Out.Key → K) (st : Settings) (fuel n : ℕ) (d r : RV Out) (t t' : Out.Table) (hd : Proper d)
    (ht : TableOk t) (hr : Out.rollNat h hk st fuel n d t = .ok (r, t')) (hw : t'.warns = 0) :
    t.warns = 0 ∧ TableOk t' ∧ Proper r ∧ (Neat d → Neat r) ∧ ∀ f, Law r.pairs f = sumLaw n d.vals d.probs f := by
  induction fuel generalizing n r t t' with
  | zero => cases hr
  | succ fuel ih =>
    unfold Out.rollNat at hr
    by_cases h0 : n = 0
    · rw [if_pos h0] at hr
      subst h0
      cases hq : Out.mkRV st [.num 0] [1] with
      | error e => rw [hq] at hr; cases hr
      | ok q =>
        rw [hq] at hr
        cases hr
        obtain ⟨g1, g2, g3, g4, g5⟩ := mkRV_law (l := [(.num 0, 1)]) (fun x hx => by rw [List.mem_singleton.1 hx]; exact .num 0) hq (by simp [mass, wsum])
        exact ⟨hw, ht, ⟨g1, g4⟩, fun _ => ⟨g2, g3⟩, fun f => by rw [g5]; simp [Law, Ex, wsum, mass, sumLaw, ExN, total, Out.content]⟩
    rw [if_neg h0] at hr
    by_cases h1 : n = 1
    · rw [if_pos h1] at hr
      cases hr
      subst h1
      exact ⟨hw, ht, hd, id, fun f => by rw [Law_contents, sumLaw, ExN_one]; rfl⟩
    rw [if_neg h1] at hr
    cases hf : Out.memoFind hk t (n, d.vals, d.probs) with
    | some q =>
      rw [hf] at hr
      cases hr
      unfold Out.memoFind at hf
      obtain ⟨e, he, hq⟩ := Option.map_eq_some_iff.1 hf
      have hp := List.find?_some he
      rw [Bool.and_eq_true] at hp
      obtain ⟨-, e2, e3, e5, e4⟩ := ht e (List.mem_of_find?_eq_some he)
      subst hq
      exact ⟨hw, ht, e3, fun _ => e5, fun f => by rw [e4, keyEq_sumLaw (b := (n, d.vals, d.probs)) e2 hd.built hp.2]⟩
    | none =>
      rw [hf] at hr
      simp only [bind, Except.bind] at hr
      cases hh : Out.rollNat h hk st fuel (n / 2) d t with
      | error e => rw [hh] at hr; cases hr
      | ok half =>
        obtain ⟨half, t1⟩ := half
        rw [hh] at hr
        simp only at hr
        cases hfu : Out.addT h st half half t1 with
        | error e => rw [hfu] at hr; cases hr
        | ok full =>
          obtain ⟨full, t2⟩ := full
          rw [hfu] at hr
          simp only at hr
          cases hod : Out.addOddT h st n full d t2 with
          | error e => rw [hod] at hr; cases hr
          | ok odd =>
            obtain ⟨odd, t3⟩ := odd
            rw [hod] at hr
            cases hr
            have hw3 : t3.warns = 0 := hw
            have ho : t2.warns = 0 ∧ t3.memo = t2.memo ∧ (n % 2 = 1 ∧ Out.addRV h st full d = .ok (odd, false) ∨ n % 2 = 0 ∧ odd = full) := by
              unfold Out.addOddT at hod
              split at hod
              · rename_i hn
                obtain ⟨a1, a2, a3⟩ := addT_law hod hw3
                exact ⟨a1, a2, .inl ⟨hn, a3⟩⟩
              · cases hod
                exact ⟨hw3, rfl, .inr ⟨by omega, rfl⟩⟩
            obtain ⟨w2, m3, ho⟩ := ho
            obtain ⟨w1, m2, hfa⟩ := addT_law hfu w2
            obtain ⟨w0, ht1, gh, -, lh⟩ := ih (n / 2) half t t1 ht hh w1
            obtain ⟨gf, nf, lf⟩ := addRV_law h gh gh hfa
            have hn2 : n / 2 ≠ 0 := by omega
            have lf' : ∀ f, Law full.pairs f = sumLaw (n / 2 + n / 2) d.vals d.probs f := by
              intro f
              rw [lf, sumLaw_add hn2 hn2, lh]
              congr 1
              funext c
              rw [lh]
            have hfin : Proper odd ∧ Neat odd ∧ ∀ f, Law odd.pairs f = sumLaw n d.vals d.probs f := by
              rcases ho with ⟨hn, ho⟩ | ⟨hn, rfl⟩
              · obtain ⟨g, ng, l⟩ := addRV_law h gf hd ho
                refine ⟨g, ng, fun f => ?_⟩
                have he : n = (n / 2 + n / 2) + 1 := by omega
                conv_rhs => rw [he]
                rw [l, sumLaw_add (by omega) one_ne_zero, lf']
                congr 1
                funext c
                rw [Law_contents, sumLaw, ExN_one]
                rfl
              · exact ⟨gf, nf, fun f => by rw [lf', show n / 2 + n / 2 = n by omega]⟩
            refine ⟨w0, fun e he => ?_, good_src hfin.1 _, fun _ => hfin.2.1, hfin.2.2⟩
            rcases List.mem_cons.1 he with rfl | he
            · exact ⟨rfl, hd.built, good_src hfin.1 _, hfin.2.1, hfin.2.2⟩
            · rw [m3, m2] at he
              exact ht1 e he

/-! ## The theorems -/

/-- C69.  Adding two dice with string outcomes, in any settings and whatever the hashes of outcomes are: if no probabilities were reduced, the sum has
every sum of an outcome of `a` and an outcome of `b` with the product of their probabilities (outcomes that are equal, such as `'a' + 'b'` and
`'b' + 'a'`, are one outcome), in ascending order, each once. -/
theorem C69_add (h : Out → H) (st : Settings) (a b r : RV Out) (ha : ∀ x ∈ a.vals, BuiltOut x) (hb : ∀ x ∈ b.vals, BuiltOut x)
    (hma : mass a.pairs ≠ 0) (hmb : mass b.pairs ≠ 0) (hr : Out.addRV h st a b = .ok (r, false)) :
    (∀ x ∈ r.vals, BuiltOut x) ∧ r.vals.length = r.probs.length ∧ r.vals.Pairwise (fun a b => Out.cmp .lt a b = true) ∧ mass r.pairs ≠ 0 ∧
      ∀ f : Content → ℚ, Ex r.pairs (fun z => f z.content) = Ex a.pairs fun x => Ex b.pairs fun y => f (plus x.content y.content) := by
  obtain ⟨g, n, l⟩ := addRV_law h ⟨ha, hma⟩ ⟨hb, hmb⟩ hr
  exact ⟨g.built, n.1, n.2, g.mass, l⟩

/-- The die `{"a", "b"}`. -/
def dieAB : RV Out := ⟨[.str strA, .str strB], [1, 1], none⟩

/-- The die `{"a", "b", 1, 1}`. -/
def dieAB1 : RV Out := ⟨[.num 1, .str strA, .str strB], [2, 1, 1], none⟩

theorem built_dieAB1 : ∀ x ∈ dieAB1.vals, BuiltOut x := by
  intro x hx
  simp only [dieAB1, List.mem_cons, List.not_mem_nil, or_false] at hx
  rcases hx with rfl | rfl | rfl
  · exact .num 1
  · exact .str _ (.str _)
  · exact .str _ (.str _)

theorem built_dieAB : ∀ x ∈ dieAB.vals, BuiltOut x := fun x hx => built_dieAB1 x (List.mem_cons_of_mem _ hx)

/-- The hash separates `'a' + 'b'` from `'b' + 'a'`; still they are one outcome of the sum. -/
example : Out.addRV Out.hashInput {} dieAB dieAB =
      .ok (⟨[.str (strA.add strB), .str (strA.add strA), .str (strB.add strB)], [2, 1, 1], none⟩, false) ∧ mass dieAB.pairs ≠ 0 := by
  refine ⟨by decide +kernel, by norm_num [mass, wsum, dieAB, RV.pairs]⟩

/-- The memo tables that rolls of dice lead to, from the empty table. -/
inductive Rolled {K : Type} [DecidableEq K] (h : Out → H) (hk : Out.Key → K) : Out.Table → Prop
  | start : Rolled h hk ⟨[], 0⟩
  | roll (t t' : Out.Table) (st : Settings) (n : ℤ) (d r : RV Out) : Rolled h hk t → (∀ x ∈ d.vals, BuiltOut x) → mass d.pairs ≠ 0 →
      Out.rollInt h hk st n d t = .ok (r, t') → Rolled h hk t'

theorem rollInt_nat {K : Type} [DecidableEq K] {h : Out → H} {hk : Out.Key → K} {st : Settings} {n : ℤ} {d r : RV Out} {t t' : Out.Table}
    (hr : Out.rollInt h hk st n d t = .ok (r, t')) : ∃ q, Out.rollNat h hk st (n.natAbs + 1) n.natAbs d t = .ok (q, t') ∧
      (0 ≤ n → q = r) ∧ (n < 0 → ∃ vs, q.vals.mapM Out.neg = .ok vs ∧ Out.mkRV st vs (q.probs.map fun p : ℕ => (p : ℤ)) = .ok r) := by
  unfold Out.rollInt at hr
  by_cases hn : n < 0
  · rw [if_pos hn] at hr
    simp only [bind, Except.bind] at hr
    cases hq : Out.rollNat h hk st (n.natAbs + 1) n.natAbs d t with
    | error e => rw [hq] at hr; cases hr
    | ok q =>
      rw [hq] at hr
      obtain ⟨q, t1⟩ := q
      simp only at hr
      cases hv : q.vals.mapM Out.neg with
      | error e => rw [hv] at hr; cases hr
      | ok vs =>
        rw [hv] at hr
        simp only at hr
        cases hm : Out.mkRV st vs (q.probs.map fun p : ℕ => (p : ℤ)) with
        | error e => rw [hm] at hr; cases hr
        | ok r' =>
          rw [hm] at hr
          cases hr
          exact ⟨q, rfl, fun h0 => absurd hn (by omega), fun _ => ⟨vs, hv, hm⟩⟩
  · rw [if_neg hn] at hr
    exact ⟨r, hr, fun _ => rfl, fun h0 => absurd h0 hn⟩

theorem rollNat_warns {K : Type} [DecidableEq K] {h : Out → H} {hk : Out.Key → K} {st : Settings} {fuel n : ℕ} {d r : RV Out} {t t' : Out.Table}
    (hr : Out.rollNat h hk st fuel n d t = .ok (r, t')) (hw : t'.warns = 0) : t.warns = 0 := by
  induction fuel generalizing n r t t' with
  | zero => cases hr
  | succ fuel ih =>
    unfold Out.rollNat at hr
    split at hr
    · cases hq : Out.mkRV st [.num 0] [1] with
      | error e => rw [hq] at hr; cases hr
      | ok q => rw [hq] at hr; cases hr; exact hw
    split at hr
    · cases hr; exact hw
    cases hf : Out.memoFind hk t (n, d.vals, d.probs) with
    | some q => rw [hf] at hr; cases hr; exact hw
    | none =>
      rw [hf] at hr
      simp only [bind, Except.bind] at hr
      cases hh : Out.rollNat h hk st fuel (n / 2) d t with
      | error e => rw [hh] at hr; cases hr
      | ok half =>
        rw [hh] at hr
        simp only at hr
        cases hfu : Out.addT h st half.1 half.1 half.2 with
        | error e => rw [hfu] at hr; cases hr
        | ok full =>
          rw [hfu] at hr
          simp only at hr
          cases hod : Out.addOddT h st n full.1 d full.2 with
          | error e => rw [hod] at hr; cases hr
          | ok odd =>
            rw [hod] at hr
            cases hr
            refine ih hh (addT_law hfu ?_).1
            unfold Out.addOddT at hod
            split at hod
            · exact (addT_law hod hw).1
            · cases hod; exact hw

theorem ExN_map {α β : Type} (n : ℕ) (l : List (α × ℕ)) (g : α → β) (f : List β → ℚ) :
    ExN n (l.map fun x => (g x.1, x.2)) f = ExN n l fun xs => f (xs.map g) := by
  induction n generalizing f with
  | zero => rfl
  | succ n ih =>
    simp only [ExN, List.map_cons, ih]
    simp only [Ex, mass, wsum_map]

theorem Rolled.ok {K : Type} [DecidableEq K] {h : Out → H} {hk : Out.Key → K} {t : Out.Table} (ht : Rolled h hk t) (hw : t.warns = 0) : TableOk t := by
  induction ht with
  | start => exact fun e he => by cases he
  | roll t t' st n d r ht hd hm hr ih =>
    obtain ⟨q, hq, -⟩ := rollInt_nat hr
    have hw0 := rollNat_warns hq hw
    exact (rollNat_law h hk st _ _ d q t t' ⟨hd, hm⟩ (ih hw0) hq hw).2.1

/-- C69.  Rolling `n ≥ 0` dice with string outcomes, after any rolls of any such dice, in any settings and whatever the hashes are: if no
probabilities were reduced so far, the result has the law of the sum of `n` independent draws. -/
theorem C69_roll {K : Type} [DecidableEq K] (h : Out → H) (hk : Out.Key → K) (st : Settings) (n : ℕ) (d r : RV Out) (t t' : Out.Table)
    (ht : Rolled h hk t) (hd : ∀ x ∈ d.vals, BuiltOut x) (hm : mass d.pairs ≠ 0)
    (hr : Out.rollInt h hk st n d t = .ok (r, t')) (hw : t'.warns = 0) :
    (∀ x ∈ r.vals, BuiltOut x) ∧ mass r.pairs ≠ 0 ∧
      (d.vals.length = d.probs.length → d.vals.Pairwise (fun a b => Out.cmp .lt a b = true) →
        r.vals.length = r.probs.length ∧ r.vals.Pairwise (fun a b => Out.cmp .lt a b = true)) ∧
      ∀ f : Content → ℚ, Ex r.pairs (fun z => f z.content) = ExN n d.pairs fun xs => f (total (xs.map Out.content)) := by
  obtain ⟨q, hq, h1, -⟩ := rollInt_nat hr
  have hw0 := rollNat_warns hq hw
  obtain rfl := h1 (Int.natCast_nonneg n)
  obtain ⟨-, -, g, nt, l⟩ := rollNat_law h hk st _ _ d q t t' ⟨hd, hm⟩ (ht.ok hw0) hq hw
  refine ⟨g.built, g.mass, fun a b => nt ⟨a, b⟩, fun f => (l f).trans ?_⟩
  rw [Int.natAbs_natCast, sumLaw, contents_pairs]
  exact ExN_map n d.pairs Out.content _

/-- A negative number: defined for numbers only. -/
def minus : Content → Content
  | .inl n => .inl (-n)
  | c => c

theorem mapM_neg {l vs : List Out} (h : l.mapM Out.neg = .ok vs) :
    (∀ a ∈ l, ∃ n, a = .num n) ∧ (∀ a ∈ vs, BuiltOut a) ∧ ∀ ps : List ℕ, ∀ f : Content → ℚ, vs.length = l.length ∧
      wsum (vs.zip ps) (fun a => f a.content) = wsum (l.zip ps) fun a => f (minus a.content) := by
  induction l generalizing vs with
  | nil => cases h; exact ⟨by simp, by simp, by simp⟩
  | cons a l ih =>
    rw [List.mapM_cons] at h
    match a with
    | .str s => cases h
    | .num n =>
      cases hl : l.mapM Out.neg with
      | error e => rw [hl] at h; cases h
      | ok ws =>
        rw [hl] at h
        cases h
        obtain ⟨i1, i2, i3⟩ := ih hl
        refine ⟨?_, ?_, fun ps f => ⟨by rw [List.length_cons, List.length_cons, (i3 ps f).1], ?_⟩⟩
        · intro b hb
          rcases List.mem_cons.1 hb with rfl | hb
          · exact ⟨n, rfl⟩
          · exact i1 b hb
        · intro b hb
          rcases List.mem_cons.1 hb with rfl | hb
          · exact .num _
          · exact i2 b hb
        · cases ps with
          | nil => rfl
          | cons p ps =>
            rw [List.zip_cons_cons, List.zip_cons_cons, wsum_cons, wsum_cons, (i3 ps f).2]
            rfl

theorem total_number {cs : List Content} : isNumber (total cs) = cs.all isNumber := by
  induction cs with
  | nil => rfl
  | cons c cs ih =>
    cases cs with
    | nil => simp [total]
    | cons c' cs => rw [total, isNumber_plus, ih] <;> simp

theorem ExN_all {α : Type} (P : α → Bool) (l : List (α × ℕ)) (n : ℕ) :
    ExN n l (fun xs => if xs.all P = true then (1 : ℚ) else 0) = (Ex l fun x => if P x = true then 1 else 0) ^ n := by
  induction n with
  | zero => simp [ExN]
  | succ n ih =>
    rw [ExN, pow_succ', ← ih, ← Ex_mul_right]
    congr 1
    funext x
    rw [← ExN_mul_left]
    congr 1
    funext xs
    cases hx : P x <;> simp [List.all_cons, hx]

theorem Ex_nonneg' {α : Type} {l : List (α × ℕ)} {f : α → ℚ} (h : ∀ x, 0 ≤ f x) : 0 ≤ Ex l f :=
  div_nonneg (wsum_nonneg fun x _ => h x.1) (wsum_nonneg fun _ _ => zero_le_one)

theorem Ex_ind_one {α : Type} {P : α → Bool} {l : List (α × ℕ)} (hm : mass l ≠ 0) (h : (Ex l fun x => if P x = true then (1 : ℚ) else 0) = 1) :
    ∀ x ∈ l, x.2 ≠ 0 → P x.1 = true := by
  have h0 : wsum l (fun x => if P x = true then (0 : ℚ) else 1) = 0 := by
    have : wsum l (fun x => if P x = true then (0 : ℚ) else 1) = wsum l (fun _ => 1) - wsum l fun x => if P x = true then (1 : ℚ) else 0 := by
      rw [← wsum_sub]
      refine wsum_congr fun x _ _ => ?_
      split <;> simp
    rw [this, sub_eq_zero]
    rw [Ex, div_eq_one_iff_eq hm] at h
    exact h.symm
  clear h hm
  induction l with
  | nil => simp
  | cons y l ih =>
    rw [wsum_cons] at h0
    have h1 : (0 : ℚ) ≤ wsum l fun x => if P x = true then (0 : ℚ) else 1 := wsum_nonneg fun x _ => by split <;> norm_num
    have h2 : (0 : ℚ) ≤ y.2 * if P y.1 = true then (0 : ℚ) else 1 := by split <;> simp
    intro x hx hx0
    rcases List.mem_cons.1 hx with rfl | hx
    · by_contra hc
      rw [if_neg hc] at h0 h2
      have : (x.2 : ℚ) ≠ 0 := by exact_mod_cast hx0
      apply this
      linarith
    · exact ih (by linarith) x hx hx0

/-- C69.  Rolling a negative number of dice: if it succeeds, without reduced probabilities, all possible outcomes of the die are numbers (a die with a
possible string outcome gives a TypeError), and the result is the negative of the sum of `n` independent draws. -/
theorem C69_roll_negative {K : Type} [DecidableEq K] (h : Out → H) (hk : Out.Key → K) (st : Settings) (n : ℕ) (d r : RV Out) (t t' : Out.Table)
    (hn : n ≠ 0) (ht : Rolled h hk t) (hd : ∀ x ∈ d.vals, BuiltOut x) (hm : mass d.pairs ≠ 0) (hl : d.vals.length = d.probs.length)
    (hs : d.vals.Pairwise (fun a b => Out.cmp .lt a b = true))
    (hr : Out.rollInt h hk st (-n) d t = .ok (r, t')) (hw : t'.warns = 0) :
    (∀ x ∈ d.pairs, x.2 ≠ 0 → ∃ m, x.1 = .num m) ∧ mass r.pairs ≠ 0 ∧
      ∀ f : Content → ℚ, Ex r.pairs (fun z => f z.content) = ExN n d.pairs fun xs => f (minus (total (xs.map Out.content))) := by
  obtain ⟨q, hq, -, h1⟩ := rollInt_nat hr
  have hw0 := rollNat_warns hq hw
  obtain ⟨vs, hv, hmk⟩ := h1 (by omega)
  obtain ⟨-, -, g, nt, l⟩ := rollNat_law h hk st _ _ d q t t' ⟨hd, hm⟩ (ht.ok hw0) hq hw
  have l' : ∀ f : Content → ℚ, Ex q.pairs (fun z => f z.content) = ExN n d.pairs fun xs => f (total (xs.map Out.content)) := by
    intro f
    refine (l f).trans ?_
    rw [Int.natAbs_neg, Int.natAbs_natCast, sumLaw, contents_pairs]
    exact ExN_map n d.pairs Out.content _
  obtain ⟨m1, m2, m3⟩ := mapM_neg hv
  have hql := (nt ⟨hl, hs⟩).1
  constructor
  · have e1 : (Ex q.pairs fun z => if isNumber z.content = true then (1 : ℚ) else 0) = 1 := by
      rw [Ex_congr (g := fun _ => 1) fun x hx _ => ?_, Ex_const g.mass]
      obtain ⟨m, hm⟩ := m1 x.1 (List.of_mem_zip hx).1
      rw [hm]
      rfl
    rw [l' fun c => if isNumber c = true then (1 : ℚ) else 0] at e1
    have e2 : (ExN n d.pairs fun xs => if isNumber (total (xs.map Out.content)) = true then (1 : ℚ) else 0) =
        ExN n d.pairs fun xs => if xs.all (fun a => isNumber a.content) = true then (1 : ℚ) else 0 := by
      refine ExN_congr fun xs _ => ?_
      rw [total_number, List.all_map]
      rfl
    rw [e2, ExN_all] at e1
    have e3 := (pow_eq_one_iff_of_nonneg (Ex_nonneg' fun x => by split <;> norm_num) hn).1 e1
    intro x hx hx0
    have := Ex_ind_one hm e3 x hx hx0
    obtain ⟨a, p⟩ := x
    cases a with
    | num m => exact ⟨m, rfl⟩
    | str s => cases this
  · have hz : ∀ (as : List Out) (ps : List ℕ), as.length = ps.length → (as.zip ps).map (fun x => x.1) = as ∧
        (as.zip ps).map (fun x => (x.2 : ℤ)) = ps.map fun p : ℕ => (p : ℤ) := by
      intro as ps hh
      refine ⟨List.map_fst_zip (by omega), ?_⟩
      conv_rhs => rw [← List.map_snd_zip (l₁ := as) (l₂ := ps) (by omega), List.map_map]
      rfl
    obtain ⟨z1, z2⟩ := hz vs q.probs ((m3 [] fun _ => 0).1.trans hql)
    have hwm : ∀ f : Content → ℚ, wsum (vs.zip q.probs) (fun a => f a.content) = wsum q.pairs fun a => f (minus a.content) := fun f => (m3 q.probs f).2
    have hmv : mass (vs.zip q.probs) = mass q.pairs := hwm fun _ => 1
    obtain ⟨-, -, -, k4, k5⟩ := mkRV_law (l := vs.zip q.probs) (fun x hx => m2 _ (List.of_mem_zip hx).1) (by rw [z1, z2]; exact hmk) (by rw [hmv]; exact g.mass)
    refine ⟨k4, fun f => (k5 f).trans ?_⟩
    rw [Law, Ex, hwm, hmv]
    exact l' fun c => f (minus c)

/-- C69.  Adding a number to a die with string outcomes. -/
theorem C69_add_number (st : Settings) (a r : RV Out) (n : ℤ) (ha : ∀ x ∈ a.vals, BuiltOut x) (hl : a.vals.length = a.probs.length)
    (hm : mass a.pairs ≠ 0) (hr : Out.addNumRV st a n = .ok r) :
    (∀ x ∈ r.vals, BuiltOut x) ∧ r.vals.Pairwise (fun a b => Out.cmp .lt a b = true) ∧
      ∀ f : Content → ℚ, Ex r.pairs (fun z => f z.content) = Ex a.pairs fun x => f (plus x.content (.inl n)) := by
  have e1 : (a.pairs.map fun x => (x.1.add (.num n), x.2)).map (fun x => x.1) = a.vals.map fun v => v.add (.num n) := by
    rw [List.map_map]
    conv_rhs => rw [← List.map_fst_zip (l₁ := a.vals) (l₂ := a.probs) (by omega), List.map_map]
    rfl
  have e2 : (a.pairs.map fun x => (x.1.add (.num n), x.2)).map (fun x => (x.2 : ℤ)) = a.probs.map fun p : ℕ => (p : ℤ) := by
    rw [List.map_map]
    conv_rhs => rw [← List.map_snd_zip (l₁ := a.vals) (l₂ := a.probs) (by omega), List.map_map]
    rfl
  have hb : ∀ x ∈ a.pairs.map fun x => (x.1.add (.num n), x.2), BuiltOut x.1 := by
    intro x hx
    obtain ⟨y, hy, rfl⟩ := List.mem_map.1 hx
    exact (ha _ (List.of_mem_zip hy).1).add (.num n)
  obtain ⟨k1, -, k3, -, k5⟩ := mkRV_law (l := a.pairs.map fun x => (x.1.add (.num n), x.2)) (r := r) hb (by rw [e1, e2]; exact hr)
    (by rw [mass, wsum_map a.pairs fun x => x.add (.num n)]; exact hm)
  refine ⟨k1, k3, fun f => (k5 f).trans ?_⟩
  simp only [Law, Ex, mass]
  rw [wsum_map a.pairs fun x => x.add (.num n), wsum_map a.pairs fun x => x.add (.num n)]
  congr 1
  refine wsum_congr fun x hx _ => ?_
  rw [content_add (ha _ (List.of_mem_zip hx).1) (.num n)]
  rfl

/-- C69.  The die of a sequence with string elements: every element is equally likely. -/
theorem C69_from_seq (st : Settings) (s : List Out) (r : RV Out) (hs : ∀ x ∈ s, BuiltOut x) (hne : s ≠ []) (hr : Out.fromSeqRV st s = .ok r) :
    (∀ x ∈ r.vals, BuiltOut x) ∧ r.vals.Pairwise (fun a b => Out.cmp .lt a b = true) ∧
      ∀ f : Content → ℚ, Ex r.pairs (fun z => f z.content) = (s.map fun x => f x.content).sum / s.length := by
  rw [Out.fromSeqRV, if_neg (by simpa using hne)] at hr
  have hw : ∀ g : Out → ℚ, wsum (s.map fun x => (x, 1)) g = (s.map g).sum := fun g => by simp [wsum, List.map_map, Function.comp_def]
  have hm : mass (s.map fun x => (x, 1)) = s.length := by rw [mass, hw]; simp
  have hl : (s.length : ℚ) ≠ 0 := by exact_mod_cast (by simpa using hne : s.length ≠ 0)
  obtain ⟨k1, -, k3, -, k5⟩ := mkRV_law (l := s.map fun x => (x, 1)) (r := r)
    (fun x hx => by obtain ⟨y, hy, rfl⟩ := List.mem_map.1 hx; exact hs y hy)
    (by simpa [List.map_map, Function.comp_def, List.map_const'] using hr) (by rw [hm]; exact hl)
  refine ⟨k1, k3, fun f => (k5 f).trans ?_⟩
  rw [Law, Ex, hw, hm]

/-- Weights and warnings of a result. -/
def weights : Except Err (RV Out × Out.Table) → Option (List ℕ × ℕ)
  | .ok r => some (r.1.probs, r.2.warns)
  | .error _ => none

/-- Did it fail with a TypeError? -/
def typeErr : Except Err (RV Out × Out.Table) → Bool
  | .error .type => true
  | _ => false

/-- Three dice `{"a", "b", 1, 1}`: `3`, `'a' + 'b' + 1`, `2'a' + 1`, `2'b' + 1`, `'a' + 2`, `'b' + 2`, `'a' + 2'b'`, `2'a' + 'b'`, `3'a'`, `3'b'`;
minus two of them fail; minus two of `{1, 2}` do not. -/
example : weights (Out.rollInt Out.hashInput (fun k => k.1) {} 3 dieAB1 ⟨[], 0⟩) = some ([8, 12, 6, 6, 12, 12, 3, 3, 1, 1], 0) ∧
    mass dieAB1.pairs = 4 ∧ typeErr (Out.rollInt Out.hashInput (fun k => k.1) {} (-2) dieAB1 ⟨[], 0⟩) = true ∧
    weights (Out.rollInt Out.hashInput (fun k => k.1) {} (-2) ⟨[.num 1, .num 2], [1, 1], none⟩ ⟨[], 0⟩) = some ([1, 2, 1], 0) ∧
    Out.addNumRV {} dieAB 1 = .ok ⟨[.str (strA.add (.fromConst 1)), .str (strB.add (.fromConst 1))], [1, 1], none⟩ ∧
    Out.fromSeqRV {} [.str strB, .str strA, .num 1, .num 1] = .ok dieAB1 := by
  refine ⟨by decide +kernel, by norm_num [mass, wsum, dieAB1, RV.pairs], by decide +kernel, by decide +kernel, by decide +kernel, by decide +kernel⟩

end PythonDice
