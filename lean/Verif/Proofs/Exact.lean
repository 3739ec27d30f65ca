import Verif.Proofs.NaiveSelect
import Verif.Spec.Exact

/-! Computations that neither warn nor overflow, because the laws have small denominators. -/

namespace PythonDice
open Spec
open Spec.Naive (Law Val mean sure push andThen uniform draws support nothing random convert choices allChoices outcomes mixed callAll faces rolls
  rollNum rollVal Over Exact ExactVal ExactRolls ExactRoll)

namespace Enum

/-! ## Denominators -/

theorem prob_mean (l : Law) (v : ℤ) : Naive.prob l v = mean l fun x => if x = v then 1 else 0 := by
  induction l with
  | nil => rfl
  | cons x l ih =>
    rw [mean_cons, ← ih]
    unfold Naive.prob
    by_cases h : x.1 = v <;> simp [h]

theorem Over.congr {n : ℕ} {l m : Law} (h : Over n l) (e : ∀ f, mean m f = mean l f) : Over n m :=
  ⟨h.1, fun v => by rw [prob_mean, e, ← prob_mean]; exact h.2 v⟩

theorem Exact.congr {l m : Law} (h : Exact l) (e : ∀ f, mean m f = mean l f) : Exact m := by
  obtain ⟨n, h1, h2⟩ := h
  exact ⟨n, h1, Over.congr h2 e⟩

/-- The sum of the weights divides every common denominator. -/
theorem DieRep.sum_dvd {r : RV ℤ} {l : Law} (h : DieRep r l) {n : ℕ} (hn : Over n l) : r.probs.sum ∣ n := by
  set S := r.probs.sum with hS
  have hSpos : 0 < S := h.proper.sum_pos
  have hmass : mass r.pairs = (S : ℚ) := by rw [mass_eq_sum, RV.pairs_map_snd r h.proper.len]
  have key : ∀ p ∈ r.probs, S ∣ p * n := by
    intro p hp
    rw [← RV.pairs_map_snd r h.proper.len] at hp
    obtain ⟨x, hx, rfl⟩ := List.mem_map.1 hp
    obtain ⟨k, hk⟩ := hn.2 x.1
    have hw : wsum r.pairs (fun y => if y = x.1 then 1 else 0) = (x.2 : ℚ) := by
      have hnd : (r.pairs.map (·.1)).Nodup := by rw [RV.pairs_map_fst r h.proper.len]; exact h.proper.sorted.imp ne_of_lt
      generalize r.pairs = L at hx hnd
      induction L with
      | nil => cases hx
      | cons y L ih =>
        rw [List.map_cons, List.nodup_cons] at hnd
        rw [wsum_cons]
        rcases List.mem_cons.1 hx with rfl | hx
        · have : wsum L (fun y => if y = x.1 then 1 else 0) = 0 := by
            unfold wsum
            refine List.sum_eq_zero fun z hz => ?_
            obtain ⟨y, hy, rfl⟩ := List.mem_map.1 hz
            change (y.2 : ℚ) * (if y.1 = x.1 then 1 else 0) = 0
            rw [if_neg, mul_zero]
            intro e
            exact hnd.1 (e ▸ List.mem_map_of_mem hy)
          rw [this]; simp
        · rw [ih hx hnd.2, if_neg]
          · simp
          · intro e
            exact hnd.1 (e ▸ List.mem_map_of_mem hx)
    have hl := h.law fun y => if y = x.1 then 1 else 0
    rw [← prob_mean, hk, Ex, hw, hmass] at hl
    have hS0 : (S : ℚ) ≠ 0 := by exact_mod_cast hSpos.ne'
    have hn0 : (n : ℚ) ≠ 0 := by exact_mod_cast hn.1.ne'
    rw [div_eq_div_iff hS0 hn0] at hl
    have hl' : x.2 * n = k * S := by exact_mod_cast hl
    exact ⟨k, by rw [hl', mul_comm]⟩
  have hg : 0 < Nat.gcd S n := Nat.gcd_pos_of_pos_left _ hSpos
  have h1 : S / Nat.gcd S n = 1 := by
    refine h.coprime _ fun p hp => ?_
    have hc : Nat.Coprime (S / Nat.gcd S n) (n / Nat.gcd S n) := Nat.coprime_div_gcd_div_gcd hg
    refine hc.dvd_of_dvd_mul_right (m := p) ?_
    obtain ⟨a, ha⟩ := Nat.gcd_dvd_left S n
    obtain ⟨b, hb⟩ := Nat.gcd_dvd_right S n
    have e1 : S / Nat.gcd S n = a := Nat.div_eq_of_eq_mul_right hg ha
    have e2 : n / Nat.gcd S n = b := Nat.div_eq_of_eq_mul_right hg hb
    rw [e1, e2]
    have := key p hp
    generalize Nat.gcd S n = g at ha hb hg
    rw [ha, hb] at this
    have h' : g * a ∣ g * (p * b) := by rwa [show g * (p * b) = p * (g * b) by ring]
    exact Nat.dvd_of_mul_dvd_mul_left hg h'
  have : S = Nat.gcd S n := by
    have := Nat.div_mul_cancel (Nat.gcd_dvd_left S n)
    rw [h1, one_mul] at this
    exact this.symm
  rw [this]
  exact Nat.gcd_dvd_right S n

theorem DieRep.sum_le {r : RV ℤ} {l : Law} (h : DieRep r l) {n : ℕ} (hn : Over n l) : r.probs.sum ≤ n := Nat.le_of_dvd hn.1 (h.sum_dvd hn)

theorem DieRep.limit {r : RV ℤ} {l : Law} (h : DieRep r l) (hl : Exact l) : RV.probLimit r = .ok (r, false) := by
  obtain ⟨n, h1, h2⟩ := hl
  exact (C28_reduction_threshold r).1 ((h.sum_le h2).trans h1)

/-! ## Computations -/

variable {β γ : Type} {I : Settings → Prop}

/-- A computation that neither warns nor overflows. -/
def Safe (I : Settings → Prop) (m : M β) : Prop :=
  ∀ w, Reachable w → I w.settings → w.warns = 0 → (m w).2.warns = 0 ∧ (m w).1 ≠ .error .overflow

/-- The same, whatever it is given. -/
def Plain (m : M β) : Prop := ∀ w, (m w).2.warns = w.warns ∧ (m w).1 ≠ .error .overflow

theorem Plain.safe {m : M β} (h : Plain m) : Safe I m := fun w _ _ h0 => ⟨(h w).1.trans h0, (h w).2⟩

theorem Plain.pure (x : β) : Plain (pure x : M β) := fun _ => ⟨rfl, fun h => by cases h⟩

theorem Plain.throw {e : Err} (h : e ≠ .overflow) : Plain (M.throw e : M β) := fun _ => ⟨rfl, fun h' => by cases h'; exact h rfl⟩

theorem Plain.bind {m : M β} {f : β → M γ} (hm : Plain m) (hf : ∀ x, Plain (f x)) : Plain (m >>= f) := by
  intro w
  obtain ⟨h1, h2⟩ := hm w
  rw [M.bind_apply]
  rcases hr : m w with ⟨r, w'⟩
  rw [hr] at h1 h2
  cases r with
  | error e => exact ⟨h1, fun h => by cases h; exact h2 rfl⟩
  | ok x => exact ⟨((hf x) w').1.trans h1, ((hf x) w').2⟩

theorem Plain.map {m : M β} (f : β → γ) (hm : Plain m) : Plain (f <$> m) := by
  rw [← bind_pure_comp]
  exact hm.bind fun x => Plain.pure _

theorem Plain.ofSettings {f : Settings → Except Err β} (h : ∀ st, f st ≠ .error .overflow) : Plain (M.ofSettings f) := fun w => ⟨rfl, h _⟩

theorem safe_pure (x : β) : Safe I (pure x : M β) := (Plain.pure x).safe

theorem Safe.bind {m : M β} {f : β → M γ} {P : β → Prop} (hm : Safe I m) (hT : Triple I m P) (hf : ∀ x, P x → Safe I (f x)) : Safe I (m >>= f) := by
  intro w hw hi h0
  obtain ⟨h1, h2⟩ := hm w hw hi h0
  obtain ⟨t1, t2, t3⟩ := hT w hw hi
  rw [M.bind_apply]
  rcases hr : m w with ⟨r, w'⟩
  rw [hr] at h1 h2 t1 t3
  cases r with
  | error e => exact ⟨h1, fun h => by cases h; exact h2 rfl⟩
  | ok x =>
    obtain ⟨i1, i2⟩ := t3 x rfl
    exact hf x (i2 h1) w' t1 i1 h1

theorem Safe.then {m : M β} {f : β → M γ} (hm : Safe I m) (hf : ∀ x, Plain (f x)) : Safe I (m >>= f) := by
  intro w hw hi h0
  obtain ⟨h1, h2⟩ := hm w hw hi h0
  rw [M.bind_apply]
  rcases hr : m w with ⟨r, w'⟩
  rw [hr] at h1 h2
  cases r with
  | error e => exact ⟨h1, fun h => by cases h; exact h2 rfl⟩
  | ok x => exact ⟨((hf x) w').1.trans h1, ((hf x) w').2⟩

theorem Safe.map {m : M β} (f : β → γ) (hm : Safe I m) : Safe I (f <$> m) := by
  intro w hw hi h0
  obtain ⟨h1, h2⟩ := hm w hw hi h0
  rw [← bind_pure_comp, M.bind_apply]
  rcases hr : m w with ⟨r, w'⟩
  rw [hr] at h1 h2
  cases r with
  | error e => exact ⟨h1, fun h => by cases h; exact h2 rfl⟩
  | ok x => exact ⟨h1, fun h => by cases h⟩

theorem Safe.forList {f : β → M γ} {l : List β} (h : ∀ x ∈ l, Safe I (f x)) (hT : ∀ x ∈ l, Triple I (f x) fun _ => True) : Safe I (M.forList f l) := by
  induction l with
  | nil => exact safe_pure _
  | cons x xs ih =>
    rw [M.forList_cons]
    have ih' := ih (fun y hy => h y (List.mem_cons_of_mem _ hy)) fun y hy => hT y (List.mem_cons_of_mem _ hy)
    refine (h x List.mem_cons_self).bind (hT x List.mem_cons_self) fun y _ => ?_
    exact Safe.map (fun ys => y :: ys) ih'

theorem safe_ofLimited {f : Settings → Except Err (β × Bool)} (h : ∀ st, I st → ∃ x, f st = .ok (x, false)) : Safe I (M.ofLimited f) := by
  intro w _ hi h0
  obtain ⟨x, hx⟩ := h _ hi
  unfold M.ofLimited
  rw [hx]
  exact ⟨h0, fun h => by cases h⟩

/-! ## Operations -/

theorem eval_ne (op : BinOp) (x y : ℤ) : op.eval x y ≠ .error .overflow := by
  intro h
  cases op <;> simp only [BinOp.eval] at h <;> (repeat' split at h) <;> cases h

theorem intBinop_ne (op : BinOp) (x y : ℤ) : intBinop op x y ≠ .error .overflow := by
  unfold intBinop
  split
  · intro h; cases h
  · intro h; cases h
  · exact eval_ne _ x y

theorem mk'_ne (st : Settings) (vals probs : List ℤ) : RV.mk' st vals probs ≠ .error .overflow := by
  rw [RV.mk'_eq]
  split
  · intro h; cases h
  · rw [RV.truncated_int]
    simp only
    split
    · split <;> (intro h; cases h)
    · intro h; cases h

theorem mapM_ne {α : Type} {f : α → Except Err β} (h : ∀ x, f x ≠ .error .overflow) (l : List α) : l.mapM f ≠ .error .overflow := by
  induction l with
  | nil => intro h; cases h
  | cons x l ih =>
    rw [List.mapM_cons]
    intro h'
    rcases hx : f x with e | y
    · rw [hx] at h'
      cases h'
      exact h x hx
    · rw [hx] at h'
      rcases hl : l.mapM f with e | ys
      · rw [hl] at h'
        cases h'
        exact ih hl
      · rw [hl] at h'
        cases h'

theorem mapVals_ne (st : Settings) (a : RV ℤ) {op : ℤ → Except Err ℤ} (h : ∀ x, op x ≠ .error .overflow) : RV.mapVals st a op ≠ .error .overflow := by
  unfold RV.mapVals
  intro h'
  rcases hx : a.vals.mapM op with e | y
  · rw [hx] at h'
    cases h'
    exact mapM_ne h _ hx
  · rw [hx] at h'
    exact mk'_ne _ _ _ h'

theorem plain_negObj (o : Obj) : Plain (negObj o) := by
  cases o <;> first | exact Plain.pure _ | exact Plain.map _ (Plain.ofSettings fun st => mapVals_ne st _ fun x => eval_ne _ _ _)

theorem plain_blankL (op : BinOp) (b : Bool) (o : Obj) : Plain (blankL op b o) := by
  unfold blankL
  split
  · split
    · exact Plain.pure _
    · exact plain_negObj _
  · exact Plain.pure _

theorem plain_numBinop (op : BinOp) (x : ℤ) (o : Obj) : Plain (numBinop op x o) := by
  unfold numBinop
  split
  · exact Plain.map _ (Plain.ofSettings fun st => intBinop_ne _ _ _)
  · split
    · exact Plain.pure _
    · exact Plain.map _ (Plain.ofSettings fun st => eval_ne _ _ _)
  · split <;> exact Plain.map _ (Plain.ofSettings fun st => mapVals_ne st _ fun x => eval_ne _ _ _)
  · exact Plain.pure _

theorem plain_binop (op : BinOp) {a b : Obj} (h : ∀ r q, ¬ (a = .rv r ∧ b = .rv q)) : Plain (binop op a b) := by
  unfold binop
  split
  · exact plain_numBinop _ _ _
  · split
    · exact Plain.pure _
    · exact Plain.map _ (Plain.ofSettings fun st => eval_ne _ _ _)
  · split
    · exact Plain.pure _
    · exact Plain.map _ (Plain.ofSettings fun st => eval_ne _ _ _)
  · exact plain_numBinop _ _ _
  · exact Plain.map _ (Plain.ofSettings fun st => mapVals_ne st _ fun x => eval_ne _ _ _)
  · exact Plain.map _ (Plain.ofSettings fun st => mapVals_ne st _ fun x => eval_ne _ _ _)
  · exact absurd ⟨rfl, rfl⟩ (h _ _)
  · exact Plain.pure _
  · exact plain_blankL _ _ _

theorem safe_binop {op : Compiler.BinOp} (hop : op ≠ .at_) {a b : Obj} {u v : Val} (ha : Rep a u) (hb : Rep b v)
    (hp : ∀ x ∈ Naive.amounts u, ∀ y ∈ Naive.amounts v, Naive.possible op x y = true) (hE : ExactVal (Naive.binary false op u v)) :
    Safe I (binop (libOp op) a b) := by
  by_cases h : ∃ r q, a = .rv r ∧ b = .rv q
  swap
  · exact (plain_binop _ fun r q e => h ⟨r, q, e⟩).safe
  obtain ⟨r, q, rfl, rfl⟩ := h
  cases u <;> first | exact absurd ha id | skip
  cases v <;> first | exact absurd hb id | skip
  rename_i l p m p'
  change Safe I (Obj.rv <$> M.ofLimited fun st => RV.binop st (libOp op) r q)
  refine Safe.map _ (safe_ofLimited fun st _ => ?_)
  have hF : ∀ x ∈ r.pairs, ∀ y ∈ q.pairs, (libOp op).eval x.1 y.1 = .ok (Naive.arith op x.1 y.1) := by
    intro x hx y hy
    obtain ⟨z, hz⟩ := eval_possible x.1 y.1 (hp _ (amounts_die ha.1 (RV.mem_vals_of_pairs hx) p) _ (amounts_die hb.1 (RV.mem_vals_of_pairs hy) p'))
    rw [hz, eval_arith hop hz]
  obtain ⟨q', hq⟩ := RV.mk'_int_ok st (RV.toTuples (RV.rdictOf (RV.prodPairs r.pairs q.pairs fun x y => Naive.arith op x y)))
  have hR := convolve_rep (F := fun x y => Naive.arith op x y) ha.1 hb.1 hq
  unfold RV.binop
  rw [RV.convolveRV_ok hF, hq]
  exact ⟨q', hR.1.limit hE⟩

theorem safe_runBin (ints : Bool) {op : Compiler.BinOp} (hop : op ≠ .at_) {a b : Obj} {u v : Val} (ha : Rep a u)
    (hb : Rep b v) (hp : ∀ x ∈ Naive.amounts u, ∀ y ∈ Naive.amounts v, Naive.possible op x y = true) (hE : ExactVal (Naive.binary ints op u v)) :
    Safe I (runBin ints op a b) := by
  by_cases hnn : (∃ x, u = .num x) ∧ ∃ y, v = .num y
  · obtain ⟨⟨x, rfl⟩, y, rfl⟩ := hnn
    rw [ha.num_inv, hb.num_inv]
    refine Plain.safe ?_
    cases ints <;> cases op <;> first
      | exact absurd rfl hop
      | exact plain_binop _ fun r q e => by cases e.1
      | exact Plain.pure _
  · have hE' : ExactVal (Naive.binary false op u v) := by
      cases ints with
      | false => exact hE
      | true => rwa [binary_ints u v (.inr fun x y e => hnn ⟨⟨x, e.1⟩, y, e.2⟩)] at hE
    have T := safe_binop (I := I) hop ha hb hp hE'
    have e : runBin ints op a b = binop (libOp op) a b := by
      cases ints
      · cases op <;> first | rfl | exact absurd rfl hop
      · cases op <;> first | rfl | exact absurd rfl hop | skip
        all_goals
          cases a <;> cases b <;> first | rfl | skip
          cases u <;> first | exact absurd ha id | skip
          cases v <;> first | exact absurd hb id | skip
          exact absurd ⟨⟨_, rfl⟩, _, rfl⟩ hnn
    rw [e]
    exact T

/-! ## Rolls -/

theorem safe_rollInt {k : ℤ} {d : RV ℤ} {b : Law} (hd : DieRep d b) (h : ExactRolls k b) : Safe I (rollInt k d) := by
  by_cases hk : 1 < k.natAbs
  · obtain ⟨n, hn, hp⟩ := h hk
    intro w hw _ h0
    obtain ⟨⟨r, hr⟩, h2⟩ := (rollInt_spec k d w hw.memoOk).total hd.proper ((Nat.pow_le_pow_left (hd.sum_le hn) _).trans hp)
    exact ⟨h2.trans h0, fun e => by rw [hr] at e; cases e⟩
  · refine Plain.safe ?_
    have h3 : k = 0 ∨ k = 1 ∨ k = -1 := by omega
    rcases h3 with rfl | rfl | rfl
    · exact Plain.ofSettings fun st => by rw [fromConst_eq]; exact fun h => by cases h
    · exact Plain.pure d
    · exact (Plain.pure d).bind fun r => Plain.ofSettings fun st => mapVals_ne st _ fun x => eval_ne _ _ _

theorem fromRvs_exact {st : Settings} {rvs : List (RV.Entry ℤ)} {ws : Option (List ℤ)} {x : Option (RV ℤ)} (h : RV.fromRvs0 st rvs ws = .ok x)
    (hx : ∀ r, x = some r → ∃ l, DieRep r l ∧ Exact l) : RV.fromRvs st rvs ws = .ok (x, false) := by
  rw [RV.fromRvs_limit, h]
  cases x with
  | none => rfl
  | some r =>
    obtain ⟨l, h1, h2⟩ := hx r rfl
    change (RV.probLimit r).bind _ = _
    rw [h1.limit h2]
    rfl

theorem safe_rollRV {X d : RV ℤ} {x b : Law} (hX : DieRep X x) (hd : DieRep d b) (hr : ∀ k ∈ x.map Prod.fst, ExactRolls k b)
    (hE : Exact (andThen x fun k => rolls k b)) : Safe I (rollRV X d) := by
  unfold rollRV
  have h1 := Triple.forList (I := I) (f := fun v => rollInt v d) (P := fun v r => RollIntOk v d r) (l := X.vals)
    fun v _ => triple_rollInt v d hd.proper
  refine Safe.bind (Safe.forList (fun v hv => safe_rollInt hd (hr v ((hX.mem_vals v).1 hv))) fun v _ => triple_rollInt' v d) h1 fun dies hdies => ?_
  have hl : ∀ st, ∃ r, RV.fromRvs st (dies.map RV.Entry.rv) (some (X.probs.map fun p : ℕ => (p : ℤ))) = .ok (some r, false) := by
    intro st
    obtain ⟨o, ho⟩ := rollDie_ok st hX.proper hdies
    obtain ⟨r, rfl, hR⟩ := rollDie_rep hX hd hdies ho
    exact ⟨r, fromRvs_exact ho fun r' e => by cases e; exact ⟨_, hR, hE⟩⟩
  refine Safe.bind (P := fun o => ∃ r, o = some r) (safe_ofLimited fun st _ => (hl st).elim fun r h => ⟨_, h⟩)
    (Triple.ofLimited fun st o _ ho => ?_) fun o ho => ?_
  · obtain ⟨r, hr⟩ := hl st
    rw [hr] at ho
    cases ho
    exact ⟨r, rfl⟩
  · obtain ⟨r, rfl⟩ := ho
    exact safe_pure _

theorem plain_asDie (o : Obj) : Plain (asDie o) := by
  have key : ∀ s : List ℤ, Plain (some <$> M.ofSettings fun st => RV.fromSeq st s) := fun s =>
    Plain.map _ (Plain.ofSettings fun st => by
      unfold RV.fromSeq
      split <;> exact mk'_ne _ _ _)
  unfold asDie
  split
  · split
    · exact key _
    · split
      · exact Plain.map _ (Plain.ofSettings fun st => by rw [fromConst_eq]; exact fun h => by cases h)
      · exact key _
  · split
    · exact Plain.pure _
    · exact key _
  · exact Plain.pure _
  · exact Plain.pure _

theorem safe_roll {n d : Obj} {u v : Val} (hn : Rep n u) (hd : Rep d v) (hE : ExactRoll u v) : Safe I (roll n d) := by
  by_cases hb : ∃ c, d = .blank c
  · obtain ⟨c, rfl⟩ := hb
    have : roll n (.blank c) = pure (.blank false) := by cases n <;> rfl
    rw [this]
    exact safe_pure _
  · by_cases hc : ∃ c, n = .blank c
    · obtain ⟨c, rfl⟩ := hc
      cases d <;> exact safe_pure _
    · have e : roll n d = asDie d >>= rollWith n := by
        cases d <;> first | exact absurd ⟨_, rfl⟩ hb | (cases n <;> first | exact absurd ⟨_, rfl⟩ hc | rfl)
      rw [e]
      refine Safe.bind (plain_asDie d).safe (full_asDie hd).1 fun o ho => ?_
      unfold DieOf at ho
      cases hf : faces v with
      | none =>
        rw [hf] at ho
        simp only at ho
        subst ho
        exact safe_pure _
      | some b =>
        rw [hf] at ho
        obtain ⟨r, rfl, h1, _⟩ := ho
        obtain ⟨e1, e2⟩ := hE b hf
        match n, u, hn with
        | .num k, .num _, hn => cases hn; exact Safe.map _ (safe_rollInt h1 (e1 k (by simp [Naive.amounts])))
        | .seq s, .seq _, hn => cases hn; exact Safe.map _ (safe_rollInt h1 (e1 s.sum (by simp [Naive.amounts])))
        | .rv x, .die l p, hn =>
          refine safe_rollRV hn.1 h1 e1 ?_
          have := e2 l p rfl
          have e3 : rollVal (.die l p) v = rollValWith (.die l p) v (faces v) := by
            cases v <;> rfl
          rw [e3, hf] at this
          exact this
        | .blank c, .blank _, hn => exact absurd ⟨c, rfl⟩ hc

/-! ## Calls -/

theorem safe_castRep {f : List Obj → M (Option Obj)} {g : List Val → Option (Option Val)}
    {args : List (Option Ty × Obj)} {vals : List (Option Ty × Val)} {v : Val} (h : List.Forall₂ RepA args vals)
    (hf : ∀ os vs r, List.Forall₂ Rep os vs → g vs = some r → Full I (f os) fun o => RepO o r) (hv : Spec.Naive.cast g vals = some v)
    (hs1 : vals.any nothing = false → vals.any random = true → ∀ cs, allChoices vals = some cs → ∀ x ∈ cs, ∀ os, List.Forall₂ Rep os x.1 → Safe I (f os))
    (hs2 : vals.any nothing = false → vals.any random = false → ∀ os, List.Forall₂ Rep os (vals.map convert) → Safe I (f os))
    (hE : vals.any nothing = false → vals.any random = true → ExactVal v) : Safe I (castCall f args) := by
  unfold Spec.Naive.cast at hv
  by_cases h1 : vals.any nothing
  · rw [castCall_eq, if_pos (by rw [any_congr (fun a b (hab : RepA a b) => aborts_nothing hab) h]; exact h1)]
    exact safe_pure _
  · rw [if_neg h1] at hv
    rw [Bool.not_eq_true] at h1
    have h1' : ¬ args.any castAborts = true := by rw [any_congr (fun a b (hab : RepA a b) => aborts_nothing hab) h, h1]; simp
    have hh : (args.map slotOf).any Slot.isHard = vals.any random := by
      rw [List.any_map]
      exact any_congr (fun a b hab => hard_random hab) h
    by_cases h2 : vals.any random
    · rw [if_pos h2] at hv
      have hE := hE h1 h2
      simp only [Option.bind_eq_bind, Option.bind_eq_some_iff, Option.some.injEq] at hv
      obtain ⟨cs, hcs, rs, hrs, rfl⟩ := hv
      obtain ⟨e1, e2⟩ := callAll_some hrs
      subst e1
      rw [castCall_eq, if_neg h1', if_pos (by rw [hh]; exact h2)]
      obtain ⟨_, hC, _⟩ := args_rep h hcs
      have hT : ∀ c ∈ combos (args.map slotOf), Full I (castStep f c) (StepRep (fun os => (g (rebuild vals os)).getD none) c) := by
        intro c hc
        obtain ⟨p1, p2⟩ := hC c hc
        exact Full.bind (hf _ _ _ p1 (e2 _ p2)) (fun o ho => Full.pure ⟨rfl, o, rfl, ho⟩) fun _ => Triple.pure True.intro
      have hS : ∀ c ∈ combos (args.map slotOf), Safe I (castStep f c) := by
        intro c hc
        obtain ⟨p1, p2⟩ := hC c hc
        obtain ⟨x, hx, e⟩ := List.mem_map.1 p2
        exact Safe.bind (hs1 h1 h2 cs hcs x hx _ (by rw [e]; exact p1)) (hf _ _ _ p1 (e2 _ p2)).1 fun o _ => safe_pure _
      refine Safe.bind (Safe.forList hS fun c hc => (hT c hc).1.mono fun _ _ => True.intro) (Full.forList hT).1 fun ys hys => ?_
      unfold castMix
      refine Safe.bind (P := fun _ => True) (safe_ofLimited fun st _ => ?_) (Triple.ofLimited fun _ _ _ _ => True.intro) fun _ _ => safe_pure _
      obtain ⟨x, hx⟩ := mix_ok st hys
      have hR := mix_rep0 h hcs (G := fun vs => (g vs).getD none) hys hx
      refine ⟨x, fromRvs_exact hx fun r e => ?_⟩
      subst e
      generalize mixed (push (fun vs => (g vs).getD none) cs) = V at hR hE
      cases V <;> first | exact absurd hR id | skip
      exact ⟨_, hR.1, hE⟩
    · rw [Bool.not_eq_true] at h2
      rw [C15_no_dice f args (by simpa using h1') (fun a ha => not_isRandom (by
        rw [h2] at hh
        simp only [List.any_map, List.any_eq_false] at hh
        simpa using hh a ha))]
      refine hs2 h1 h2 _ ?_
      clear hv hs1 hs2 hE h1 h1' h2 hh
      induction h with
      | nil => exact .nil
      | cons hd _ ih => exact .cons (convert_rep hd) ih

/-! ## Selection -/

theorem mixed_exact {cs : List (List Val × ℚ)} {G : List Val → Option Val} {m : Law} (ht : (mean m fun _ => 1) = 1)
    (h : ∀ f, (mean cs fun vs => mean (outcomes (G vs)) f) = mean m f) (hE : Exact m) : ExactVal (mixed (push G cs)) := by
  have hl : ∀ f, mean (andThen (push G cs) outcomes) f = mean m f := fun f => by rw [mean_andThen, mean_push]; exact h f
  unfold mixed
  simp only
  split
  · trivial
  · refine Exact.congr hE fun f => ?_
    rw [hl fun _ => 1, ht]
    simp only [div_one]
    rw [← hl f]
    congr 1
    exact List.map_id' _

theorem kth_ok (st : Settings) {D : RV ℤ} {b : Law} (hD : DieRep D b) (n : ℕ) {i : ℕ} (hi : i < n) :
    ∃ q, RV.mk' st D.vals (D.vals.map (RV.kthWeight D n (n - i))) = .ok q := by
  refine Fine.mk'_ok st (by simp) fun p hp => ?_
  obtain ⟨v, _, rfl⟩ := List.mem_map.1 hp
  have h1 := RV.kthWeight_eq D hD.proper.len hD.proper.pos n i hi 0 v
  have h2 : (0 : ℚ) ≤ RV.kthWeight D n (n - i) v := by
    rw [h1]
    apply mul_nonneg
    · apply ExN_nonneg; intro xs; split <;> norm_num
    · exact pow_nonneg (mass_nonneg _) _
  exact_mod_cast h2

theorem safe_sumAt (os : List Obj) : Safe I (sumAtFn os) := by
  unfold sumAtFn
  split
  · exact safe_pure _
  · exact (Plain.throw (fun h => by cases h)).safe

theorem safe_pick {low : Bool} (hI : ∀ st, I st → st.positionOrder = order low) (is : List ℤ) {r : RV ℤ} {l : Law}
    {p : Option (ℕ × Law)} {x : Val} (h : Rep (.rv r) (.die l p)) (hx : Naive.pick low is (.die l p) = some x) (hE : ExactVal x) :
    Safe I (rvRmatmul is r) := by
  rcases p with _ | ⟨n, b⟩
  · cases hx
  obtain ⟨hn, hb⟩ := h.2 n b rfl
  by_cases hs : ∃ i, is = [i]
  · obtain ⟨i, rfl⟩ := hs
    change Safe I (M.ofLimited _ >>= _)
    have hx' : (if 1 ≤ i ∧ i ≤ n then some (Naive.one (push (fun xs => Naive.elemAt (if low then ascending xs else descending xs) i) (draws b n))) else some (.num 0)) = some x := hx
    refine Safe.bind (P := fun _ => True) (safe_ofLimited fun st hst => ?_) (Triple.ofLimited fun _ _ _ _ => True.intro) fun y _ => safe_pure _
    rw [hn]
    by_cases hk : 1 ≤ i ∧ i ≤ n
    · rw [if_pos hk] at hx'
      cases hx'
      obtain ⟨j, hj, hkj⟩ := rank_exists (hI st hst) hk
      have heq := RV.kthOrder_limit (st := st) (r := r.source.2) (fun _ _ => rfl) hb.proper.len hb.proper.sorted (fun _ => hb.nz)
        hb.coprime hb.proper.pos n j i hj hkj
      obtain ⟨q, hq⟩ := kth_ok st hb n hj
      have hR := kth_rep0 (hI st hst) hb hk hj hkj hq
      rw [heq, hq]
      change ∃ y, (RV.probLimit q).bind _ = _
      rw [hR.1.limit hE]
      exact ⟨_, rfl⟩
    · have heq := RV.kthOrder_eq (st := st) (r := r.source.2) (fun _ _ => rfl) hb.proper.len hb.proper.sorted hb.proper.nonempty (fun _ => hb.nz)
        hb.coprime n i
      have hrank : (1 ≤ i ∧ i ≤ n) ↔ (1 ≤ RV.ascRank st n i ∧ RV.ascRank st n i ≤ n) := by
        unfold RV.ascRank
        rw [hI st hst]
        cases low
        · change _ ↔ 1 ≤ (n : ℤ) - i + 1 ∧ (n : ℤ) - i + 1 ≤ n
          omega
        · exact Iff.rfl
      have hk' := fun h => hk (hrank.2 h)
      rw [heq, if_pos (by omega)]
      exact ⟨_, rfl⟩
  · have e : rvRmatmul is r = castCall sumAtFn [(some .S, .rv r), (some .S, .seq is)] >>= fun res => pure (res.getD (.blank false)) := by
      match is, hs with
      | [], _ => rfl
      | [i], hs => exact absurd ⟨i, rfl⟩ hs
      | _ :: _ :: _, _ => rfl
    have ex : x = Naive.one (push (fun xs => Naive.sumAt (descending xs) is) (draws b n)) := by
      match is, hs with
      | [], _ => cases hx; rfl
      | [i], hs => exact absurd ⟨i, rfl⟩ hs
      | _ :: _ :: _, _ => cases hx; rfl
    rw [e]
    subst ex
    obtain ⟨cs, hcast, hm⟩ := pick_cast l is n b
    refine Safe.bind (P := fun _ => True) (safe_castRep (I := I) (f := sumAtFn) (args := [(some .S, .rv r), (some .S, .seq is)])
      (vals := [(some .S, .die l (some (n, b))), (some .S, .seq is)])
      (.cons ⟨rfl, h⟩ (.cons ⟨rfl, rfl⟩ .nil)) full_sumAt hcast ?_ ?_ ?_) ?_ fun _ _ => safe_pure _
    · intro _ _ cs hcs x hx os hos
      exact safe_sumAt _
    · intro _ _ os hos
      exact safe_sumAt _
    · intro _ _
      refine mixed_exact ?_ hm hE
      rw [mean_push, ← hb.draws, ExN_const hb.proper.pos]
    · exact (full_castRep (I := I) (f := sumAtFn) (args := [(some .S, .rv r), (some .S, .seq is)])
        (vals := [(some .S, .die l (some (n, b))), (some .S, .seq is)])
        (.cons ⟨rfl, h⟩ (.cons ⟨rfl, rfl⟩ .nil)) full_sumAt hcast).1.mono fun _ _ => True.intro

theorem digitsSeq_ne (n : ℤ) : digitsSeq n ≠ .error .overflow := by
  unfold digitsSeq
  refine mapM_ne (fun x => ?_) _
  cases x <;> (intro h; cases h)

theorem safe_matmul {low : Bool} (hI : ∀ st, I st → st.positionOrder = order low) {ints : Bool} {a b : Obj} {u v x : Val}
    (ha : Rep a u) (hb : Rep b v) (hx : Naive.at' low ints u v = some x) (hE : ExactVal x) : Safe I (matmul a b) := by
  have hthrow : Safe I (M.throw .type : M Obj) := (Plain.throw (fun h => by cases h)).safe
  match a, u, ha, b, v, hb with
  | .num i, .num _, ha, .rv r, .die l p, hb => cases ha; exact safe_pick hI [i] hb hx hE
  | .seq is, .seq _, ha, .rv r, .die l p, hb => cases ha; exact safe_pick hI is hb hx hE
  | .num i, .num _, _, .num n, .num _, _ => exact hthrow
  | .num i, .num _, _, .seq s, .seq _, _ => exact safe_pure _
  | .num i, .num _, _, .blank c, .blank _, _ => exact safe_pure _
  | .seq is, .seq _, _, .num n, .num _, _ =>
    exact ((Plain.ofSettings fun _ => digitsSeq_ne n).bind fun _ => Plain.pure _).safe
  | .seq is, .seq _, _, .seq s, .seq _, _ => exact safe_pure _
  | .seq is, .seq _, _, .blank c, .blank _, _ => exact safe_pure _
  | .rv _, .die _ _, _, _, _, _ => exact hthrow
  | .blank _, .blank _, _, _, _, _ => exact hthrow

theorem safe_at {low : Bool} (hI : ∀ st, I st → st.positionOrder = order low) (ints : Bool) {a b : Obj} {u v x : Val}
    (ha : Rep a u) (hb : Rep b v) (hx : Naive.at' low ints u v = some x) (hE : ExactVal x) : Safe I (runBin ints .at_ a b) := by
  have T := safe_matmul hI ha hb hx hE
  cases ints with
  | false => exact T
  | true =>
    change Safe I (myMatmul a b)
    by_cases hnn : (∃ k, a = .num k) ∧ ∃ n, b = .num n
    · obtain ⟨⟨k, rfl⟩, n, rfl⟩ := hnn
      unfold myMatmul
      simp only
      split
      · refine Plain.safe (Plain.map _ (Plain.ofSettings fun _ => ?_))
        generalize (strInt n).getD (k - 1).toNat none = c
        cases c <;> (intro h; cases h)
      · exact safe_pure _
    · have : myMatmul a b = matmul a b := by
        cases a <;> cases b <;> first | rfl | exact absurd ⟨⟨_, rfl⟩, _, rfl⟩ hnn
      rw [this]
      exact T

/-! ## Other operations -/

theorem plain_myInvert (o : Obj) : Plain (myInvert o) := by
  cases o <;> first | exact Plain.pure _ | skip
  refine Plain.map _ (Plain.ofSettings fun st => ?_)
  unfold RV.invert
  split <;> (rw [fromConst_eq]; intro h; cases h)

theorem plain_unary (ints : Bool) (op : Compiler.UnOp) (o : Obj) : Plain (runUnary ints op o) := by
  cases op with
  | plus => cases o <;> first | exact Plain.pure _ | exact Plain.throw (fun h => by cases h)
  | minus =>
    cases o <;> first
      | exact Plain.pure _
      | exact Plain.map _ (Plain.ofSettings fun st => mapVals_ne st _ fun x => eval_ne _ _ _)
      | exact Plain.throw (fun h => by cases h)
  | not_ =>
    cases ints with
    | true => exact plain_myInvert o
    | false =>
      match o with
      | .num _ => exact Plain.pure _
      | .seq s => exact plain_myInvert (.seq s)
      | .rv r => exact plain_myInvert (.rv r)
      | .blank b => exact plain_myInvert (.blank b)

theorem plain_hash (ints : Bool) (o : Obj) : Plain (runLen ints o) := by
  cases ints with
  | true => exact Plain.pure _
  | false => cases o <;> first | exact Plain.pure _ | exact Plain.throw (fun h => by cases h)

theorem plain_range (a b : Obj) : Plain (myRange a b) := by
  cases a <;> cases b <;> first | exact Plain.pure _ | exact Plain.throw (fun h => by cases h)

theorem plain_truth (o : Obj) : Plain (truthOp o) := by
  cases o <;> first | exact Plain.pure _ | exact Plain.throw (fun h => by cases h)

theorem plain_iter (o : Obj) : Plain (iterOp o) := by
  cases o <;> first | exact Plain.pure _ | exact Plain.throw (fun h => by cases h)

end Enum
end PythonDice
