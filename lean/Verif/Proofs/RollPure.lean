import Verif.Proofs.Roll

/-! The memo table is invisible as long as 'RV_IGNORE_ZERO_PROBS' does not change. -/

namespace PythonDice
open Spec

theorem mk'_congr_int {st st' : Settings} (h : st.rvIgnoreZeroProbs = st'.rvIgnoreZeroProbs) (vals : List ℤ)
    (probs : List ℤ) : RV.mk' st vals probs = RV.mk' st' vals probs := by
  rw [RV.mk'_eq, RV.mk'_eq, RV.truncated_int, RV.truncated_int]
  have hc : RV.core st vals probs = RV.core st' vals probs := by simp only [RV.core, h]
  simp only [hc]

theorem mapVals_congr {st st' : Settings} (h : st.rvIgnoreZeroProbs = st'.rvIgnoreZeroProbs) (a : RV ℤ)
    (op : ℤ → Except Err ℤ) : RV.mapVals st a op = RV.mapVals st' a op := by
  unfold RV.mapVals
  simp only [mk'_congr_int h]

theorem binop_congr {st st' : Settings} (h : st.rvIgnoreZeroProbs = st'.rvIgnoreZeroProbs) (op : BinOp) (a b : RV ℤ) :
    RV.binop st op a b = RV.binop st' op a b := by
  unfold RV.binop RV.convolveRV
  simp only [mk'_congr_int h]

theorem fromSeq_congr {st st' : Settings} (h : st.rvIgnoreZeroProbs = st'.rvIgnoreZeroProbs) (s : List ℤ) :
    RV.fromSeq st s = RV.fromSeq st' s := by
  unfold RV.fromSeq
  simp only [mk'_congr_int h]

theorem fromConst_congr {st st' : Settings} (h : st.rvIgnoreZeroProbs = st'.rvIgnoreZeroProbs) (v : ℤ) :
    RV.fromConst st v = RV.fromConst st' v := by
  unfold RV.fromConst
  simp only [mk'_congr_int h]

theorem fromRvs_congr {st st' : Settings} (h : st.rvIgnoreZeroProbs = st'.rvIgnoreZeroProbs) (es : List (RV.Entry ℤ))
    (ws : Option (List ℤ)) : RV.fromRvs st es ws = RV.fromRvs st' es ws := by
  unfold RV.fromRvs
  simp only [mk'_congr_int h]

/-- `_roll_int_rv` without the memo table. -/
def pureRoll (st : Settings) : ℕ → ℕ → RV ℤ → Except Err (RV ℤ)
  | 0, _, _ => .error .user
  | fuel + 1, n, d =>
    if n = 0 then RV.fromConst st 0
    else if n = 1 then .ok d
    else
      match pureRoll st fuel (n / 2) d with
      | .error e => .error e
      | .ok half =>
        match RV.binop st .add half half with
        | .error e => .error e
        | .ok (full, _) =>
          if n % 2 = 1 then
            match RV.binop st .add full d with
            | .error e => .error e
            | .ok (full, _) => .ok (full.setSource n d)
          else .ok (full.setSource n d)

theorem pureRoll_fuel (st : Settings) (f g n : ℕ) (d : RV ℤ) (hf : n < f) (hg : n < g) :
    pureRoll st f n d = pureRoll st g n d := by
  induction f generalizing g n with
  | zero => omega
  | succ f ih =>
    cases g with
    | zero => omega
    | succ g =>
      unfold pureRoll
      by_cases h0 : n = 0
      · simp [h0]
      by_cases h1 : n = 1
      · simp [h1]
      rw [ih g (n / 2) (by omega) (by omega)]

theorem pureRoll_key (st : Settings) (f n : ℕ) (d d' : RV ℤ) (hn : n ≠ 1) (hv : d.vals = d'.vals) (hp : d.probs = d'.probs) :
    pureRoll st f n d = pureRoll st f n d' := by
  have hb : ∀ x : RV ℤ, RV.binop st .add x d = RV.binop st .add x d' := by
    intro x; unfold RV.binop RV.convolveRV; simp only [RV.pairs, hv, hp]
  have hb' : RV.binop st .add d d = RV.binop st .add d' d' := by
    unfold RV.binop RV.convolveRV; simp only [RV.pairs, hv, hp]
  induction f generalizing n with
  | zero => rfl
  | succ f ih =>
    unfold pureRoll
    by_cases h0 : n = 0
    · simp [h0]
    simp only [hn, h0, if_false]
    have hss : ∀ x : RV ℤ, x.setSource n d = x.setSource n d' := by intro x; simp [RV.setSource, hv, hp]
    by_cases h2 : n / 2 = 1
    · cases f with
      | zero => rfl
      | succ f =>
        have e : ∀ y, pureRoll st (f + 1) (n / 2) y = .ok y := by
          intro y; unfold pureRoll; simp [h2]
        rw [e, e]
        simp only [hb', hb, hss]
    · rw [ih (n / 2) h2]
      simp only [hb, hss]

/-- Settings representing the relevant flag. -/
def flagSettings (z : Bool) : Settings := { rvIgnoreZeroProbs := z }

/-- Every memo entry is what a roll with an empty table would compute. -/
def MemoPure (z : Bool) (w : World) : Prop :=
  w.settings.rvIgnoreZeroProbs = z ∧ ∀ n vs ps r, w.memo.lookup (n, vs, ps) = some r →
    2 ≤ n ∧ pureRoll (flagSettings z) (n + 1) n (keyDie vs ps) = .ok r

/-- The result of a computation does not depend on the history. -/
def Det {β : Type} (z : Bool) (m : M β) : Prop :=
  ∃ v, ∀ w, MemoPure z w → (m w).1 = v ∧ MemoPure z (m w).2

namespace Det
variable {β γ : Type} {z : Bool}

theorem pure (x : β) : Det z (pure x : M β) := ⟨.ok x, fun _ hw => ⟨rfl, hw⟩⟩

theorem throw (e : Err) : Det z (M.throw e : M β) := ⟨.error e, fun _ hw => ⟨rfl, hw⟩⟩

theorem bind {m : M β} {f : β → M γ} (hm : Det z m) (hf : ∀ x, Det z (f x)) : Det z (m >>= f) := by
  obtain ⟨v, hv⟩ := hm
  cases v with
  | error e =>
    refine ⟨.error e, fun w hw => ?_⟩
    obtain ⟨h1, h2⟩ := hv w hw
    rw [M.bind_apply]
    cases h : m w with
    | mk r w' => rw [h] at h1 h2; cases h1; exact ⟨rfl, h2⟩
  | ok x =>
    obtain ⟨u, hu⟩ := hf x
    refine ⟨u, fun w hw => ?_⟩
    obtain ⟨h1, h2⟩ := hv w hw
    rw [M.bind_apply]
    cases h : m w with
    | mk r w' => rw [h] at h1 h2; cases h1; exact hu w' h2

theorem map {m : M β} {f : β → γ} (hm : Det z m) : Det z (f <$> m) := by
  rw [← bind_pure_comp]; exact bind hm fun _ => pure _

theorem ofSettings {f : Settings → Except Err β}
    (h : ∀ s, s.rvIgnoreZeroProbs = z → f s = f (flagSettings z)) : Det z (M.ofSettings f) :=
  ⟨f (flagSettings z), fun w hw => ⟨h _ hw.1, hw⟩⟩

theorem ofLimited {f : Settings → Except Err (β × Bool)}
    (h : ∀ s, s.rvIgnoreZeroProbs = z → f s = f (flagSettings z)) : Det z (M.ofLimited f) := by
  refine ⟨(f (flagSettings z)).map (·.1), fun w hw => ?_⟩
  unfold M.ofLimited
  rw [h _ hw.1]
  split
  · rename_i x b hb
    rw [hb]
    refine ⟨rfl, ?_⟩
    simp only
    split
    · exact hw
    · exact hw
  · rename_i e he
    rw [he]; exact ⟨rfl, hw⟩

theorem forList {f : β → M γ} (h : ∀ x, Det z (f x)) (l : List β) : Det z (M.forList f l) := by
  induction l with
  | nil => exact pure _
  | cons x xs ih =>
    rw [M.forList_cons]
    exact bind (h x) fun y => bind ih fun ys => pure _

end Det

theorem addM_det {z : Bool} (a b : RV ℤ) (w : World) (hw : MemoPure z w) :
    (addM a b w).1 = (RV.binop (flagSettings z) .add a b).map (·.1) ∧ MemoPure z (addM a b w).2 := by
  unfold addM M.ofLimited
  simp only
  rw [binop_congr (st' := flagSettings z) (by rw [hw.1]; rfl)]
  cases h : RV.binop (flagSettings z) .add a b with
  | error e => exact ⟨rfl, hw⟩
  | ok x =>
    obtain ⟨x, b⟩ := x
    cases b
    · exact ⟨rfl, hw⟩
    · exact ⟨rfl, hw⟩

theorem rollNat_det (z : Bool) (fuel n : ℕ) (d : RV ℤ) (hf : n < fuel) (w : World) (hw : MemoPure z w) :
    (rollNat fuel n d w).1 = pureRoll (flagSettings z) fuel n d ∧ MemoPure z (rollNat fuel n d w).2 := by
  induction fuel generalizing n w with
  | zero => omega
  | succ fuel ih =>
    unfold rollNat pureRoll
    by_cases h0 : n = 0
    · subst h0
      rw [if_pos rfl, if_pos rfl]
      exact ⟨fromConst_congr (by rw [hw.1]; rfl) 0, hw⟩
    rw [if_neg h0, if_neg h0]
    by_cases h1 : n = 1
    · subst h1
      rw [if_pos rfl, if_pos rfl]
      exact ⟨rfl, hw⟩
    rw [if_neg h1, if_neg h1]
    have hget : memoGet n d w = (.ok (w.memo.lookup (n, d.vals, d.probs)), w) := rfl
    rw [M.bind_ok hget]
    cases hl : w.memo.lookup (n, d.vals, d.probs) with
    | some r =>
      obtain ⟨_, g2⟩ := hw.2 n d.vals d.probs r hl
      refine ⟨?_, hw⟩
      change Except.ok r = _
      rw [← g2, pureRoll_key _ _ _ (keyDie d.vals d.probs) d h1 rfl rfl]
      rw [pureRoll_fuel _ (n + 1) (fuel + 1) n d (by omega) hf]
      conv_lhs => unfold pureRoll
      rw [if_neg h0, if_neg h1]
    | none =>
      simp only
      obtain ⟨i1, i2⟩ := ih (n / 2) (by omega) w hw
      rw [M.bind_apply]
      cases hr1 : rollNat fuel (n / 2) d w with
      | mk res1 w1 =>
      rw [hr1] at i1 i2
      simp only at i1 i2
      rw [← i1]
      cases res1 with
      | error e => exact ⟨rfl, i2⟩
      | ok half =>
      simp only
      obtain ⟨a1, a2⟩ := addM_det half half w1 i2
      rw [M.bind_apply]
      cases hr2 : addM half half w1 with
      | mk res2 w2 =>
      rw [hr2] at a1 a2
      simp only at a1 a2
      have hstep : ∀ full : RV ℤ, (pureRoll (flagSettings z) (n + 1) n d = .ok (full.setSource n d)) →
          ∀ w3, MemoPure z w3 → MemoPure z (memoSet n d (full.setSource n d) w3).2 := by
        intro full hfull w3 hw3
        refine ⟨hw3.1, ?_⟩
        intro n' vs ps r' hr'
        change (((n, d.vals, d.probs), full.setSource n d) :: w3.memo).lookup (n', vs, ps) = some r' at hr'
        simp only [List.lookup] at hr'
        split at hr'
        · rename_i heq
          cases hr'
          simp only [beq_iff_eq, Prod.mk.injEq] at heq
          obtain ⟨rfl, rfl, rfl⟩ := heq
          refine ⟨by omega, ?_⟩
          rw [pureRoll_key _ _ _ (keyDie d.vals d.probs) d h1 rfl rfl]
          exact hfull
        · exact hw3.2 n' vs ps r' hr'
      have hpure : pureRoll (flagSettings z) (fuel + 1) n d = pureRoll (flagSettings z) (n + 1) n d :=
        pureRoll_fuel _ _ _ _ _ hf (by omega)
      have hunf : pureRoll (flagSettings z) (fuel + 1) n d =
        (match (Except.ok half : Except Err (RV ℤ)) with
          | .error e => .error e
          | .ok half =>
            match RV.binop (flagSettings z) .add half half with
            | .error e => .error e
            | .ok (full, _) =>
              if n % 2 = 1 then
                match RV.binop (flagSettings z) .add full d with
                | .error e => .error e
                | .ok (full, _) => .ok (full.setSource n d)
              else .ok (full.setSource n d)) := by
        conv_lhs => unfold pureRoll
        rw [if_neg h0, if_neg h1, ← i1]
      simp only at hunf
      cases hb : RV.binop (flagSettings z) .add half half with
      | error e =>
        rw [hb] at a1
        cases a1
        exact ⟨rfl, a2⟩
      | ok fb =>
      obtain ⟨full, b⟩ := fb
      rw [hb] at a1 hunf
      change res2 = .ok full at a1
      subst a1
      simp only at hunf ⊢
      unfold addOdd
      by_cases hodd : n % 2 = 1
      · rw [if_pos hodd, if_pos hodd] 
        rw [if_pos hodd] at hunf
        obtain ⟨b1, b2⟩ := addM_det full d w2 a2
        rw [M.bind_apply]
        cases hr3 : addM full d w2 with
        | mk res3 w3 =>
        rw [hr3] at b1 b2
        simp only at b1 b2
        cases hb3 : RV.binop (flagSettings z) .add full d with
        | error e =>
          rw [hb3] at b1; cases b1
          exact ⟨rfl, b2⟩
        | ok fb3 =>
          obtain ⟨full3, b3⟩ := fb3
          rw [hb3] at b1 hunf
          change res3 = .ok full3 at b1
          subst b1
          exact ⟨rfl, hstep full3 (by rw [← hpure, hunf]) w3 b2⟩
      · rw [if_neg hodd, if_neg hodd]
        rw [if_neg hodd] at hunf
        exact ⟨rfl, hstep full (by rw [← hpure, hunf]) w2 a2⟩

theorem rollInt_det (z : Bool) (n : ℤ) (d : RV ℤ) : Det z (rollInt n d) := by
  have h : Det z (rollNat (n.natAbs + 1) n.natAbs d) :=
    ⟨_, fun w hw => rollNat_det z (n.natAbs + 1) n.natAbs d (by omega) w hw⟩
  unfold rollInt
  split
  · exact h.bind fun r => Det.ofSettings fun s hs => mapVals_congr (by rw [hs]; rfl) _ _
  · exact h

theorem asDie_det (z : Bool) (d : Obj) : Det z (asDie d) := by
  unfold asDie
  have hs : ∀ s : List ℤ, Det z (M.ofSettings fun st => RV.fromSeq st s) :=
    fun s => Det.ofSettings fun st hst => fromSeq_congr (by rw [hst]; rfl) s
  split
  · split
    · exact (hs _).map
    · split
      · exact (Det.ofSettings fun st hst => fromConst_congr (by rw [hst]; rfl) 0).map
      · exact (hs _).map
  · split
    · exact Det.pure _
    · exact (hs _).map
  · exact Det.pure _
  · exact Det.pure _

theorem rollRV_det (z : Bool) (n d : RV ℤ) : Det z (rollRV n d) := by
  unfold rollRV
  refine Det.bind (Det.forList (fun v => rollInt_det z v d) _) fun dies => ?_
  refine Det.bind (Det.ofLimited fun st hst => fromRvs_congr (by rw [hst]; rfl) _ _) fun r => ?_
  split
  · exact Det.pure _
  · exact Det.throw _

theorem roll_det (z : Bool) (n d : Obj) : Det z (roll n d) := by
  unfold roll
  split
  · exact Det.pure _
  · exact Det.pure _
  · refine Det.bind (asDie_det z _) fun x => ?_
    split
    · exact Det.pure _
    · split
      · exact (rollInt_det z _ _).map
      · exact (rollInt_det z _ _).map
      · exact rollRV_det z _ _
      · exact Det.pure _

theorem History.memoPure {z : Bool} {w : World} (h : History z w) : MemoPure z w := by
  induction h with
  | init s hs => exact ⟨hs, fun n vs ps r h => by simp at h⟩
  | settings s hs _ ih => exact ⟨hs, ih.2⟩
  | roll n d _ ih =>
    obtain ⟨v, hv⟩ := roll_det z n d
    exact (hv _ ih).2
  | effects wn k t o d _ ih => exact ⟨ih.1, ih.2⟩

end PythonDice
