import Verif.Proofs.World
import Verif.Props.Algebra
import Mathlib.Tactic.Linarith

/-! Rolling dice: the law of `_roll_int_rv` and the memo table. -/

namespace PythonDice
open Spec

theorem RV.mass_eq_probs {r : RV ℤ} (h : r.vals.length = r.probs.length) : mass r.pairs = (r.probs.sum : ℕ) := by
  rw [mass_eq_sum, RV.pairs_map_snd r h]

theorem RV.Proper.sum_pos {r : RV ℤ} (h : r.Proper) : 1 ≤ r.probs.sum := by
  have := h.pos
  rw [RV.mass_eq_probs h.len] at this
  have : r.probs.sum ≠ 0 := by exact_mod_cast this
  omega

theorem wsum_pos_of_mem {α : Type} {l : List (α × ℕ)} {f : α → ℚ} (hf : ∀ x ∈ l, 0 ≤ f x.1) {x : α × ℕ} (hx : x ∈ l)
    (hp : x.2 ≠ 0) (h : 0 < f x.1) : 0 < wsum l f := by
  induction l with
  | nil => cases hx
  | cons y l ih =>
    rw [wsum_cons]
    have hy := hf y List.mem_cons_self
    have hl := wsum_nonneg fun z hz => hf z (List.mem_cons_of_mem _ hz)
    rcases List.mem_cons.1 hx with rfl | hx
    · have : (0 : ℚ) < x.2 := by exact_mod_cast Nat.pos_of_ne_zero hp
      have := mul_pos this h
      linarith
    · have := ih (fun z hz => hf z (List.mem_cons_of_mem _ hz)) hx
      have := mul_nonneg (Nat.cast_nonneg (α := ℚ) y.2) hy
      linarith

/-- A correct `n`-fold roll of `D`. -/
structure SumOk (n : ℕ) (D r : RV ℤ) : Prop where
  proper : r.Proper
  law : ∀ f, Ex r.pairs f = ExN n D.pairs fun xs => f xs.sum
  sum_le : r.probs.sum ≤ D.probs.sum ^ n
  canon : n ≠ 1 → r.Canonical
  nz : (∀ p ∈ D.probs, p ≠ 0) → ∀ p ∈ r.probs, p ≠ 0

/-- … which remembers its source. -/
structure RollOk (n : ℕ) (D r : RV ℤ) : Prop extends SumOk n D r where
  src : 2 ≤ n → r.src = some (n, D.vals, D.probs)
  one : n = 1 → r.vals = D.vals ∧ r.probs = D.probs
  zero : n = 0 → r.src = none

/-- Sum of two independent dice. -/
structure AddOk (a b r : RV ℤ) : Prop where
  proper : r.Proper
  law : ∀ f, Ex r.pairs f = Ex a.pairs fun x => Ex b.pairs fun y => f (x + y)
  sum_le : r.probs.sum ≤ a.probs.sum * b.probs.sum
  canon : r.Canonical
  nz : (∀ p ∈ a.probs, p ≠ 0) → (∀ p ∈ b.probs, p ≠ 0) → ∀ p ∈ r.probs, p ≠ 0

theorem binop_add_nz {st : Settings} {a b r : RV ℤ} (ha : a.Proper) (hb : b.Proper)
    (h : RV.binop st .add a b = .ok (r, false)) (za : ∀ p ∈ a.probs, p ≠ 0) (zb : ∀ p ∈ b.probs, p ≠ 0) :
    ∀ p ∈ r.probs, p ≠ 0 := by
  have hane : a.pairs ≠ [] := by intro h0; exact ha.pos (by simp [h0, mass])
  have hbne : b.pairs ≠ [] := by intro h0; exact hb.pos (by simp [h0, mass])
  obtain ⟨hc, ⟨g, hg, hw⟩, h1, h2⟩ := RV.conv_summary (F := fun x y => x + y) (fun _ _ => rfl) h hane hbne
    (Or.inl ⟨ha.pos, hb.pos⟩)
  have hnd : (r.pairs.map (·.1)).Nodup := by rw [RV.pairs_map_fst r hc.len]; exact hc.sorted.imp ne_of_lt
  intro p hp
  rw [← RV.pairs_map_snd r hc.len] at hp
  obtain ⟨z, hz, rfl⟩ := List.mem_map.1 hp
  have hzv : z.1 ∈ r.pairs.map (·.1) := List.mem_map_of_mem (f := (·.1)) hz
  have key : wsum r.pairs (fun x => if x = z.1 then 1 else 0) ≠ 0 := by
    cases hi : st.rvIgnoreZeroProbs with
    | true => exact (h2 hi z.1).1 hzv
    | false =>
      obtain ⟨x, hx, y, hy, e⟩ := (h1 hi z.1).1 hzv
      intro h0
      have := hw fun v => if v = z.1 then 1 else 0
      rw [h0, mul_zero] at this
      obtain ⟨x', hx', rfl⟩ := List.mem_map.1 hx
      obtain ⟨y', hy', rfl⟩ := List.mem_map.1 hy
      have hin : ∀ u, (0 : ℚ) ≤ wsum b.pairs fun y => if u + y = z.1 then 1 else 0 := by
        intro u; apply wsum_nonneg; intro _ _; split <;> norm_num
      have hpos : (0 : ℚ) < wsum b.pairs fun y => if x'.1 + y = z.1 then 1 else 0 := by
        refine wsum_pos_of_mem (fun _ _ => by split <;> norm_num) hy' ?_ ?_
        · exact zb _ (by rw [← RV.pairs_map_snd b hb.len]; exact List.mem_map_of_mem (f := (·.2)) hy')
        · rw [if_pos e.symm]; norm_num
      have := wsum_pos_of_mem (f := fun u => wsum b.pairs fun y => if u + y = z.1 then 1 else 0)
        (fun u _ => hin u.1) hx'
        (za _ (by rw [← RV.pairs_map_snd a ha.len]; exact List.mem_map_of_mem (f := (·.2)) hx')) hpos
      linarith
  rw [← RV.weightOf_eq_wsum, RV.weightOf_of_mem hnd hz] at key
  exact_mod_cast key

theorem binop_add_ok {st : Settings} {a b r : RV ℤ} (ha : a.Proper) (hb : b.Proper)
    (h : RV.binop st .add a b = .ok (r, false)) : AddOk a b r := by
  have hF : ∀ x ∈ a.pairs, ∀ y ∈ b.pairs, BinOp.add.eval x.1 y.1 = .ok (x.1 + y.1) := fun _ _ _ _ => rfl
  have law := RV.convolveRV_Ex (F := fun x y => x + y) hF h ha.pos hb.pos
  have hm := RV.convolveRV_mass (F := fun x y => x + y) hF h ha.pos hb.pos
  have hnz := binop_add_nz ha hb h
  unfold RV.binop at h
  rw [RV.convolveRV_ok (F := fun x y => x + y) hF, RV.bind_ok_iff] at h
  obtain ⟨r0, h0, h1⟩ := h
  have := RV.probLimit_false h1
  subst this
  refine ⟨(RV.mk'_canonical h0).proper hm, fun f => by simpa using law f, ?_, RV.mk'_canonical h0, hnz⟩
  refine (RV.mk'_sum_le h0).trans (max_le ?_ (le_of_eq ?_))
  · exact Nat.mul_le_mul ha.sum_pos hb.sum_pos
  · have hmass : mass (RV.toTuples (RV.rdictOf (RV.prodPairs a.pairs b.pairs fun x y => x + y))) =
        ((a.probs.sum * b.probs.sum : ℕ) : ℚ) := by
      rw [mass, RV.tuples_wsum, ← mass, RV.prodPairs_mass, RV.mass_eq_probs ha.len, RV.mass_eq_probs hb.len]
      push_cast; rfl
    rw [mass_eq_sum] at hmass
    have e : ∀ l : List (ℤ × ℕ), (l.map fun x => (x.2 : ℤ)).map Int.toNat = l.map (·.2) := by
      intro l; rw [List.map_map]; rfl
    rw [e]
    exact_mod_cast hmass

theorem addM_world (a b : RV ℤ) (w : World) :
    (addM a b w).2 = w ∨ (addM a b w).2 = { w with warns := w.warns + 1 } := by
  unfold addM M.ofLimited
  split
  · rename_i x b' _
    cases b'
    · exact Or.inl rfl
    · exact Or.inr rfl
  · exact Or.inl rfl

theorem addM_ok {a b r : RV ℤ} {w w' : World} (ha : a.Proper) (hb : b.Proper)
    (h : addM a b w = (.ok r, w')) (hw : w'.warns = w.warns) : AddOk a b r := by
  unfold addM M.ofLimited at h
  split at h
  · rename_i x b' hb'
    cases b'
    · cases h
      exact binop_add_ok ha hb hb'
    · cases h; simp at hw
  · cases h

theorem addM_small {a b : RV ℤ} (ha : a.Proper) (hb : b.Proper)
    (h : a.probs.sum * b.probs.sum ≤ RV.sumLimit) (w : World) :
    ∃ r, addM a b w = (.ok r, w) ∧ AddOk a b r := by
  obtain ⟨r, hr⟩ := C05_binop_succeeds w.settings .add a b (fun x _ y _ => ⟨_, .add x y⟩) ha.len hb.len h
  refine ⟨r, ?_, binop_add_ok ha hb hr⟩
  unfold addM M.ofLimited
  simp only [hr]; rfl

/-- The die a memo key stands for. -/
def keyDie (vs : List ℤ) (ps : List ℕ) : RV ℤ := { vals := vs, probs := ps }

theorem RollOk.congr {n : ℕ} {D D' r : RV ℤ} (hv : D.vals = D'.vals) (hp : D.probs = D'.probs)
    (h : RollOk n D r) : RollOk n D' r := by
  have hpairs : D.pairs = D'.pairs := by simp [RV.pairs, hv, hp]
  exact ⟨⟨h.proper, by rw [← hpairs]; exact h.law, by rw [← hp]; exact h.sum_le, h.canon,
    by rw [← hp]; exact h.nz⟩, by rw [← hv, ← hp]; exact h.src, by rw [← hv, ← hp]; exact h.one, h.zero⟩

theorem RV.Proper.congr {D D' : RV ℤ} (hv : D.vals = D'.vals) (hp : D.probs = D'.probs) (h : D.Proper) : D'.Proper := by
  have hpairs : D.pairs = D'.pairs := by simp [RV.pairs, hv, hp]
  exact ⟨by rw [← hv, ← hp]; exact h.len, by rw [← hv]; exact h.sorted, by rw [← hv]; exact h.nonempty,
    by rw [← hpairs]; exact h.pos⟩

/-- Invariant of the memo table. -/
def MemoOk (w : World) : Prop :=
  ∀ n vs ps r, w.memo.lookup (n, vs, ps) = some r → 2 ≤ n ∧
    ((keyDie vs ps).Proper → (w.warns = 0 ∨ ps.sum ^ n ≤ RV.sumLimit) → RollOk n (keyDie vs ps) r)

theorem MemoOk.warn {w w' : World} (h : MemoOk w) (hm : w'.memo = w.memo) (hw : w.warns ≤ w'.warns) : MemoOk w' := by
  intro n vs ps r hr
  rw [hm] at hr
  obtain ⟨h1, h2⟩ := h n vs ps r hr
  refine ⟨h1, fun hp hc => h2 hp ?_⟩
  rcases hc with hc | hc
  · exact Or.inl (by omega)
  · exact Or.inr hc

theorem addM_frame (a b : RV ℤ) (w : World) (h : MemoOk w) :
    MemoOk (addM a b w).2 ∧ w.warns ≤ (addM a b w).2.warns ∧ (addM a b w).2.settings = w.settings ∧
    (addM a b w).2.memo = w.memo := by
  rcases addM_world a b w with e | e <;> rw [e]
  · exact ⟨h, le_refl _, rfl, rfl⟩
  · exact ⟨h.warn rfl (by simp), by simp, rfl, rfl⟩

theorem AddOk.roll {m n : ℕ} {D a b r : RV ℤ} (ha : SumOk m D a) (hb : SumOk n D b) (h : AddOk a b r) :
    SumOk (m + n) D r := by
  refine ⟨h.proper, fun f => ?_, ?_, fun _ => h.canon, fun hz => h.nz (ha.nz hz) (hb.nz hz)⟩
  · rw [h.law, ExN_add]
    rw [ha.law fun x => Ex b.pairs fun y => f (x + y)]
    apply ExN_congr
    intro xs _
    rw [hb.law]
    simp only [List.sum_append]
  · refine h.sum_le.trans ?_
    rw [pow_add]
    exact Nat.mul_le_mul ha.sum_le hb.sum_le

theorem RollOk.mk_one {d : RV ℤ} (hd : d.Proper) : RollOk 1 d d :=
  ⟨⟨hd, fun f => by simp [ExN_one], by simp, fun h => absurd rfl h, id⟩, by omega, fun _ => ⟨rfl, rfl⟩, by omega⟩

theorem proper_const (v : ℤ) (s : Option (ℕ × List ℤ × List ℕ)) : (⟨[v], [1], s⟩ : RV ℤ).Proper := by
  exact ⟨rfl, by simp, by simp, by simp [mass, RV.pairs]⟩

theorem canonical_const (v : ℤ) (s : Option (ℕ × List ℤ × List ℕ)) : (⟨[v], [1], s⟩ : RV ℤ).Canonical :=
  ⟨rfl, by simp, by simp, fun _ d hd => Nat.dvd_one.1 (hd 1 (by simp))⟩

theorem fromConst_eq (st : Settings) (v : ℤ) : RV.fromConst st v = .ok ⟨[v], [1], none⟩ := by
  rw [RV.fromConst]
  have h := RV.mk'_sorted (st := st) (vals := [v]) (probs := [1]) (fun _ _ => rfl) rfl (by simp) (by simp) (by simp)
  simpa [RV.normFactor_of_coprime, RV.normFactor, RV.gcdList] using h

theorem RollOk.mk_zero (d : RV ℤ) : RollOk 0 d ⟨[0], [1], none⟩ :=
  ⟨⟨proper_const _ _, fun f => by simp [RV.pairs, Ex_singleton, ExN], by simp, fun _ => canonical_const _ _, by simp⟩, by omega, by omega, fun _ => rfl⟩

theorem setSource_pairs (r : RV ℤ) (n : ℕ) (d : RV ℤ) : (r.setSource n d).pairs = r.pairs := rfl

theorem setSource_canonical {r : RV ℤ} (h : r.Canonical) (n : ℕ) (d : RV ℤ) : (r.setSource n d).Canonical :=
  ⟨h.len, h.sorted, h.nonempty, h.coprime⟩

theorem setSource_proper {r : RV ℤ} (h : r.Proper) (n : ℕ) (d : RV ℤ) : (r.setSource n d).Proper :=
  RV.Proper.congr (D := r) rfl rfl h

/-- The combined specification of `_roll_int_rv` for `n ≥ 0`. -/
structure RollSpec (n : ℕ) (d : RV ℤ) (w : World) (o : Except Err (RV ℤ) × World) : Prop where
  memo : MemoOk o.2
  warns : w.warns ≤ o.2.warns
  settings : o.2.settings = w.settings
  law : d.Proper → ∀ r, o.1 = .ok r → (o.2.warns = 0 ∨ d.probs.sum ^ n ≤ RV.sumLimit) → RollOk n d r
  total : d.Proper → d.probs.sum ^ n ≤ RV.sumLimit → (∃ r, o.1 = .ok r) ∧ o.2.warns = w.warns

theorem rollNat_spec (fuel n : ℕ) (d : RV ℤ) (hf : n < fuel) (w : World) (hw : MemoOk w) :
    RollSpec n d w (rollNat fuel n d w) := by
  induction fuel generalizing n w with
  | zero => omega
  | succ fuel ih =>
    unfold rollNat
    by_cases h0 : n = 0
    · subst h0
      rw [if_pos rfl]
      have e : M.ofSettings (fun st => RV.fromConst st 0) w = (.ok ⟨[(0 : ℤ)], [1], none⟩, w) := by
        unfold M.ofSettings; simp only [fromConst_eq]
      rw [e]
      exact ⟨hw, le_refl _, rfl, fun _ r hr _ => by cases hr; exact RollOk.mk_zero d,
        fun _ _ => ⟨⟨_, rfl⟩, rfl⟩⟩
    rw [if_neg h0]
    by_cases h1 : n = 1
    · subst h1
      rw [if_pos rfl, M.pure_apply]
      exact ⟨hw, le_refl _, rfl, fun hd r hr _ => by cases hr; exact RollOk.mk_one hd,
        fun _ _ => ⟨⟨_, rfl⟩, rfl⟩⟩
    rw [if_neg h1]
    have hn2 : 2 ≤ n := by omega
    have hget : memoGet n d w = (.ok (w.memo.lookup (n, d.vals, d.probs)), w) := rfl
    rw [M.bind_ok hget]
    cases hl : w.memo.lookup (n, d.vals, d.probs) with
    | some r =>
      change RollSpec n d w (.ok r, w)
      obtain ⟨_, g2⟩ := hw n d.vals d.probs r hl
      refine ⟨hw, le_refl _, rfl, fun hd r' hr' hc => ?_, fun _ _ => ⟨⟨_, rfl⟩, rfl⟩⟩
      cases hr'
      exact RollOk.congr (D := keyDie d.vals d.probs) rfl rfl (g2 (RV.Proper.congr (D := d) rfl rfl hd) hc)
    | none =>
      simp only
      obtain ⟨i1, i2, i3, i4, i5⟩ := ih (n / 2) (by omega) w hw
      rw [M.bind_apply]
      cases hr1 : rollNat fuel (n / 2) d w with
      | mk res1 w1 =>
      rw [hr1] at i1 i2 i3 i4 i5
      simp only at i1 i2 i3 i4 i5
      have hpow : d.Proper → d.probs.sum ^ n ≤ RV.sumLimit → d.probs.sum ^ (n / 2) ≤ RV.sumLimit := by
        intro hd hs
        exact (Nat.pow_le_pow_right hd.sum_pos (by omega)).trans hs
      cases res1 with
      | error e =>
        change RollSpec n d w (.error e, w1)
        refine ⟨i1, i2, i3, fun _ r hr => (by cases hr), fun hd hs => ?_⟩
        obtain ⟨⟨r, hr⟩, _⟩ := i5 hd (hpow hd hs)
        cases hr
      | ok half =>
      simp only
      obtain ⟨a1, a2, a3, a4⟩ := addM_frame half half w1 i1
      rw [M.bind_apply]
      cases hr2 : addM half half w1 with
      | mk res2 w2 =>
      rw [hr2] at a1 a2 a3 a4
      simp only at a1 a2 a3 a4
      have hhalf_small : d.Proper → d.probs.sum ^ n ≤ RV.sumLimit → RollOk (n / 2) d half :=
        fun hd hs => i4 hd half rfl (Or.inr (hpow hd hs))
      have hbound : d.Proper → d.probs.sum ^ n ≤ RV.sumLimit → half.probs.sum * half.probs.sum ≤ RV.sumLimit := by
        intro hd hs
        have hh := (hhalf_small hd hs).sum_le
        refine (Nat.mul_le_mul hh hh).trans ?_
        rw [← pow_add]
        exact (Nat.pow_le_pow_right hd.sum_pos (by omega)).trans hs
      cases res2 with
      | error e =>
        change RollSpec n d w (.error e, w2)
        refine ⟨a1, i2.trans a2, by rw [a3, i3], fun _ r hr => (by cases hr), fun hd hs => ?_⟩
        obtain ⟨r, hr, _⟩ := addM_small (hhalf_small hd hs).proper (hhalf_small hd hs).proper (hbound hd hs) w1
        rw [hr] at hr2; cases hr2
      | ok full =>
      simp only
      -- full is a roll of 2 * (n/2)
      have hfull_small : d.Proper → d.probs.sum ^ n ≤ RV.sumLimit → AddOk half half full ∧ w2 = w1 := by
        intro hd hs
        obtain ⟨r, hr, hok⟩ := addM_small (hhalf_small hd hs).proper (hhalf_small hd hs).proper (hbound hd hs) w1
        rw [hr] at hr2; cases hr2; exact ⟨hok, rfl⟩
      have hfull : d.Proper → w2.warns = 0 → AddOk half half full ∧ RollOk (n / 2) d half := by
        intro hd hz
        have hw1 : w1.warns = 0 := by omega
        have hh := i4 hd half rfl (Or.inl hw1)
        exact ⟨addM_ok hh.proper hh.proper hr2 (by omega), hh⟩
      have hcases : d.Proper → (w2.warns = 0 ∨ d.probs.sum ^ n ≤ RV.sumLimit) →
          AddOk half half full ∧ RollOk (n / 2) d half := by
        rintro hd (hz | hs)
        · exact hfull hd hz
        · exact ⟨(hfull_small hd hs).1, hhalf_small hd hs⟩
      -- the optional extra die
      have hlast : ∀ (res3 : Except Err (RV ℤ)) (w3 : World),
          addOdd n full d w2 = (res3, w3) →
          MemoOk w3 ∧ w2.warns ≤ w3.warns ∧ w3.settings = w2.settings ∧
          (d.Proper → ∀ r, res3 = .ok r → (w3.warns = 0 ∨ d.probs.sum ^ n ≤ RV.sumLimit) →
            SumOk n d r) ∧
          (d.Proper → d.probs.sum ^ n ≤ RV.sumLimit → (∃ r, res3 = .ok r) ∧ w3.warns = w2.warns) := by
        intro res3 w3 h3
        unfold addOdd at h3
        by_cases hodd : n % 2 = 1
        · rw [if_pos hodd] at h3
          obtain ⟨b1, b2, b3, b4⟩ := addM_frame full d w2 a1
          rw [h3] at b1 b2 b3 b4
          have hsmall : d.Proper → d.probs.sum ^ n ≤ RV.sumLimit → ∃ r, (res3, w3) = (.ok r, w2) ∧ AddOk full d r := by
            intro hd hs
            have hf1 := (hfull_small hd hs).1
            have hh := AddOk.roll (hhalf_small hd hs).toSumOk (hhalf_small hd hs).toSumOk hf1
            obtain ⟨r, hr, hok⟩ := addM_small hf1.proper hd (by
              refine (Nat.mul_le_mul hh.sum_le (le_refl _)).trans ?_
              rw [← pow_succ]
              exact (Nat.pow_le_pow_right hd.sum_pos (by omega)).trans hs) w2
            rw [h3] at hr
            exact ⟨r, hr, hok⟩
          refine ⟨b1, b2, b3, ?_, ?_⟩
          · intro hd r hr hc
            subst hr
            have key : AddOk full d r ∧ AddOk half half full ∧ RollOk (n / 2) d half := by
              rcases hc with hz | hs
              · have hz2 : w2.warns = 0 := by simp only at b2; omega
                obtain ⟨k1, k2⟩ := hcases hd (Or.inl hz2)
                exact ⟨addM_ok k1.proper hd h3 (by omega), k1, k2⟩
              · obtain ⟨r', hr', hok⟩ := hsmall hd hs
                cases hr'
                exact ⟨hok, hcases hd (Or.inr hs)⟩
            obtain ⟨k1, k2, k3⟩ := key
            have := AddOk.roll (AddOk.roll k3.toSumOk k3.toSumOk k2) (RollOk.mk_one hd).toSumOk k1
            have e : n / 2 + n / 2 + 1 = n := by omega
            rw [e] at this; exact this
          · intro hd hs
            obtain ⟨r, hr, _⟩ := hsmall hd hs
            cases hr
            exact ⟨⟨_, rfl⟩, rfl⟩
        · rw [if_neg hodd, M.pure_apply] at h3
          cases h3
          refine ⟨a1, le_refl _, rfl, ?_, fun _ _ => ⟨⟨_, rfl⟩, rfl⟩⟩
          intro hd r hr hc
          cases hr
          obtain ⟨k1, k2⟩ := hcases hd hc
          have := AddOk.roll k2.toSumOk k2.toSumOk k1
          have e : n / 2 + n / 2 = n := by omega
          rw [e] at this; exact this
      rw [M.bind_apply]
      cases hr3 : addOdd n full d w2 with
      | mk res3 w3 =>
      obtain ⟨c1, c2, c3, c4, c5⟩ := hlast res3 w3 hr3
      have hwarn12 : d.Proper → d.probs.sum ^ n ≤ RV.sumLimit → w3.warns = w.warns := by
        intro hd hs
        rw [(c5 hd hs).2, (hfull_small hd hs).2]
        exact (i5 hd (hpow hd hs)).2
      cases res3 with
      | error e =>
        change RollSpec n d w (.error e, w3)
        refine ⟨c1, i2.trans (a2.trans c2), by rw [c3, a3, i3], fun _ r hr => (by cases hr), fun hd hs => ?_⟩
        obtain ⟨⟨r, hr⟩, _⟩ := c5 hd hs
        cases hr
      | ok fin =>
        simp only
        have hset : memoSet n d (fin.setSource n d) w3 =
            (.ok (), { w3 with memo := ((n, d.vals, d.probs), fin.setSource n d) :: w3.memo }) := rfl
        rw [M.bind_ok hset, M.pure_apply]
        have hfin : d.Proper → (w3.warns = 0 ∨ d.probs.sum ^ n ≤ RV.sumLimit) → RollOk n d (fin.setSource n d) := by
          intro hd hc
          have q := c4 hd fin rfl hc
          exact ⟨⟨setSource_proper q.proper _ _, q.law, q.sum_le, fun h => setSource_canonical (q.canon h) _ _, q.nz⟩,
            fun _ => rfl, by omega, by omega⟩
        refine ⟨?_, i2.trans (a2.trans c2), by simp only [c3, a3, i3], ?_, ?_⟩
        · intro n' vs ps r' hr'
          simp only [List.lookup] at hr'
          split at hr'
          · rename_i heq
            cases hr'
            simp only [beq_iff_eq, Prod.mk.injEq] at heq
            obtain ⟨rfl, rfl, rfl⟩ := heq
            refine ⟨hn2, fun hp hc => ?_⟩
            exact RollOk.congr (D := d) rfl rfl (hfin (RV.Proper.congr (D := keyDie d.vals d.probs) rfl rfl hp) hc)
          · exact c1 n' vs ps r' hr'
        · intro hd r hr hc
          cases hr
          exact hfin hd hc
        · intro hd hs
          exact ⟨⟨_, rfl⟩, hwarn12 hd hs⟩

theorem memoOk_init : MemoOk {} := by
  intro n vs ps r h
  simp at h

/-! ## Negative counts -/

theorem mk'_src {st : Settings} {vals : List ℤ} {probs : List ℤ} {t : Option Bool} {r : RV ℤ}
    (h : RV.mk' st vals probs t = .ok r) : r.src = none := by
  obtain ⟨_, _, vs, _, hr⟩ := RV.mk'_ok h
  rcases hr with ⟨_, rfl⟩ | ⟨_, rfl⟩ <;> rfl

theorem mk'_nz {st : Settings} {vals : List ℤ} {probs : List ℕ} {t : Option Bool} {r : RV ℤ}
    (h : RV.mk' st vals (probs.map fun p : ℕ => (p : ℤ)) t = .ok r) (hz : ∀ p ∈ probs, p ≠ 0) : ∀ p ∈ r.probs, p ≠ 0 := by
  obtain ⟨hl, _, vs, hv, hr⟩ := RV.mk'_ok h
  have hc := RV.mk'_canonical h
  rw [RV.truncated_int] at hv; cases hv
  have e : (probs.map fun p : ℕ => (p : ℤ)).map Int.toNat = probs := by
    rw [List.map_map]
    exact (List.map_congr_left (g := id) fun p _ => by simp).trans (List.map_id _)
  rcases hr with ⟨_, rfl⟩ | ⟨hne, rfl⟩
  · simp
  · intro p hp
    simp only [RV.normPairs, List.map_map, List.mem_map, Function.comp_apply] at hp
    obtain ⟨z, hz', rfl⟩ := hp
    have hs := RV.core_sorted st vals (probs.map fun p : ℕ => (p : ℤ))
    have hnd : ((RV.core st vals (probs.map fun p : ℕ => (p : ℤ))).map (·.1)).Nodup := by
      rw [List.nodup_iff_pairwise_ne, List.pairwise_map]; exact hs.imp ne_of_lt
    have hw := RV.weightOf_of_mem hnd hz'
    have hdvd : RV.normFactor ((RV.core st vals (probs.map fun p : ℕ => (p : ℤ))).map (·.2)) ∣ z.2 :=
      RV.normFactor_dvd _ _ (List.mem_map_of_mem (f := (·.2)) hz')
    have hzne : z.2 ≠ 0 := by
      have hin : z.1 ∈ (vals.zip probs).map (·.1) := by
        have := List.mem_map_of_mem (f := (·.1)) hz'
        unfold RV.core at this
        have h2 : z.1 ∈ (RV.grouped (RV.getZip vals ((probs.map fun p : ℕ => (p : ℤ)).map Int.toNat))).map (·.1) := by
          cases hi : st.rvIgnoreZeroProbs with
          | false => rw [hi] at this; exact this
          | true =>
            rw [hi, RV.newZipped_true] at this
            obtain ⟨y, hy, e⟩ := List.mem_map.1 this
            rw [← e]; exact List.mem_map_of_mem (f := (·.1)) (List.mem_of_mem_filter hy)
        rw [RV.grouped_mem, e, ((RV.getZip_perm vals probs).map (·.1)).mem_iff] at h2
        exact h2
      obtain ⟨x, hx, hxe⟩ := List.mem_map.1 hin
      have hpos : (0 : ℚ) < wsum (vals.zip probs) fun u => if u = z.1 then 1 else 0 :=
        wsum_pos_of_mem (fun _ _ => by split <;> norm_num) hx (hz _ (List.of_mem_zip hx).2) (by rw [if_pos hxe]; norm_num)
      have hcw := RV.core_wsum st vals (probs.map fun p : ℕ => (p : ℤ)) fun u => if u = z.1 then 1 else 0
      rw [e, ← RV.weightOf_eq_wsum, hw] at hcw
      rw [← hcw] at hpos
      intro h0
      rw [h0] at hpos; simp at hpos
    intro h0
    obtain ⟨k, hk⟩ := hdvd
    have hg := RV.normFactor_pos ((RV.core st vals (probs.map fun p : ℕ => (p : ℤ))).map (·.2))
    rw [hk, Nat.mul_div_cancel_left _ hg] at h0
    rw [h0] at hk; simp at hk; exact hzne hk

theorem mapVals_spec (st : Settings) {d : RV ℤ} (hd : d.Proper) (op : ℤ → Except Err ℤ) (F : ℤ → ℤ)
    (hF : ∀ x ∈ d.vals, op x = .ok (F x)) :
    ∃ r, RV.mapVals st d op = .ok r ∧ r.Proper ∧ r.Canonical ∧ r.src = none ∧ r.probs.sum ≤ d.probs.sum ∧
      ((∀ p ∈ d.probs, p ≠ 0) → ∀ p ∈ r.probs, p ≠ 0) ∧
      ∀ f, Ex r.pairs f = Ex d.pairs fun x => f (F x) := by
  have hok : ∃ r, RV.mapVals st d op = .ok r := by
    rw [RV.mapVals_ok hF, RV.mk'_eq, if_neg (by simpa using hd.len), RV.truncated_int]
    simp only
    rw [if_pos (by simp)]
    split <;> exact ⟨_, rfl⟩
  obtain ⟨r, hr⟩ := hok
  have law := RV.mapVals_Ex hF hr hd.pos
  have hm := RV.mapVals_mass hF hr hd.pos
  have h0 := hr
  rw [RV.mapVals_ok hF] at h0
  refine ⟨r, hr, (RV.mk'_canonical h0).proper hm, RV.mk'_canonical h0, mk'_src h0, ?_, mk'_nz h0, fun f => by simpa using law f⟩
  refine (RV.mk'_sum_le h0).trans (max_le hd.sum_pos (le_of_eq ?_))
  rw [List.map_map]
  congr 1
  exact (List.map_congr_left (g := id) fun p _ => by simp).trans (List.map_id _)

theorem neg_ok (st : Settings) {d : RV ℤ} (hd : d.Proper) :
    ∃ r, RV.neg st d = .ok r ∧ r.Proper ∧ r.Canonical ∧ r.src = none ∧ r.probs.sum ≤ d.probs.sum ∧
      ((∀ p ∈ d.probs, p ≠ 0) → ∀ p ∈ r.probs, p ≠ 0) ∧
      ∀ f, Ex r.pairs f = Ex d.pairs fun x => f (-x) := by
  obtain ⟨r, h1, h2, h3, h4, h5, h5', h6⟩ := mapVals_spec st hd (fun x => BinOp.sub.eval 0 x) (fun x => -x)
    fun x _ => by change Except.ok (0 - x) = _; rw [zero_sub]
  exact ⟨r, h1, h2, h3, h4, h5, h5', h6⟩

/-- The specification of `_roll_int_rv` for any `n`. -/
structure RollIntOk (n : ℤ) (D r : RV ℤ) : Prop where
  proper : r.Proper
  law : ∀ f, Ex r.pairs f = ExN n.natAbs D.pairs fun xs => f (n.sign * xs.sum)
  sum_le : r.probs.sum ≤ D.probs.sum ^ n.natAbs
  canon : n ≠ 1 → r.Canonical
  src : 2 ≤ n → r.src = some (n.natAbs, D.vals, D.probs)
  nz : (∀ p ∈ D.probs, p ≠ 0) → ∀ p ∈ r.probs, p ≠ 0
  one : n = 1 → r.vals = D.vals ∧ r.probs = D.probs
  zero : n ≤ 0 → r.src = none

structure RollIntSpec (n : ℤ) (d : RV ℤ) (w : World) (o : Except Err (RV ℤ) × World) : Prop where
  memo : MemoOk o.2
  warns : w.warns ≤ o.2.warns
  settings : o.2.settings = w.settings
  law : d.Proper → ∀ r, o.1 = .ok r → (o.2.warns = 0 ∨ d.probs.sum ^ n.natAbs ≤ RV.sumLimit) → RollIntOk n d r
  total : d.Proper → d.probs.sum ^ n.natAbs ≤ RV.sumLimit → (∃ r, o.1 = .ok r) ∧ o.2.warns = w.warns

theorem rollInt_spec (n : ℤ) (d : RV ℤ) (w : World) (hw : MemoOk w) : RollIntSpec n d w (rollInt n d w) := by
  have hs := rollNat_spec (n.natAbs + 1) n.natAbs d (by omega) w hw
  unfold rollInt
  by_cases hn : n < 0
  · rw [if_pos hn, M.bind_apply]
    cases hr : rollNat (n.natAbs + 1) n.natAbs d w with
    | mk res w' =>
    rw [hr] at hs
    cases res with
    | error e =>
      change RollIntSpec n d w (.error e, w')
      exact ⟨hs.memo, hs.warns, hs.settings, fun _ r hr => (by cases hr), fun hd h => hs.total hd h |>.1.elim nofun⟩
    | ok r =>
      change RollIntSpec n d w (RV.neg w'.settings r, w')
      refine ⟨hs.memo, hs.warns, hs.settings, fun hd r' hr' hc => ?_, fun hd h => ⟨?_, (hs.total hd h).2⟩⟩
      · have ho := hs.law hd r rfl hc
        obtain ⟨r'', h1, h2, h3, h4, h5, h5', h6⟩ := neg_ok w'.settings ho.proper
        simp only at hr'
        rw [h1] at hr'; cases hr'
        refine ⟨h2, fun f => ?_, h5.trans ho.sum_le, fun _ => h3, fun h => by omega, fun hz => h5' (ho.nz hz), by omega,
          fun _ => h4⟩
        rw [h6, ho.law, Int.sign_eq_neg_one_of_neg hn]
        simp
      · have ho := hs.law hd r rfl (Or.inr h)
        obtain ⟨r'', h1, _⟩ := neg_ok w'.settings ho.proper
        exact ⟨r'', h1⟩
  · rw [if_neg hn]
    refine ⟨hs.memo, hs.warns, hs.settings, fun hd r hr hc => ?_, hs.total⟩
    have ho := hs.law hd r hr hc
    refine ⟨ho.proper, fun f => ?_, ho.sum_le, fun h => ho.canon (by omega), fun h => ho.src (by omega), ho.nz,
      fun h => ho.one (by omega), fun h => ho.zero (by omega)⟩
    rw [ho.law]
    rcases lt_or_eq_of_le (not_lt.1 hn) with h | h
    · simp [Int.sign_eq_one_of_pos h]
    · subst h; simp [ExN]

theorem Reachable.memoOk {w : World} (h : Reachable w) : MemoOk w := by
  induction h with
  | init => exact memoOk_init
  | settings s _ ih => exact ih.warn rfl (le_refl _)
  | roll n d _ ih => exact (rollInt_spec n d _ ih).memo
  | warn _ ih => exact ih.warn rfl (by simp)
  | effects k t o d _ ih => exact ih.warn rfl (le_refl _)

theorem triple_rollInt {I : Settings → Prop} (n : ℤ) (d : RV ℤ) (hd : d.Proper) :
    Triple I (rollInt n d) fun r => RollIntOk n d r := by
  intro w hw hi
  have h := rollInt_spec n d w hw.memoOk
  exact ⟨hw.roll n d, h.warns, fun r hr => ⟨by rw [h.settings]; exact hi, fun hz => h.law hd r hr (Or.inl hz)⟩⟩

theorem triple_rollInt' {I : Settings → Prop} (n : ℤ) (d : RV ℤ) : Triple I (rollInt n d) fun _ => True := by
  intro w hw hi
  have h := rollInt_spec n d w hw.memoOk
  exact ⟨hw.roll n d, h.warns, fun _ _ => ⟨by rw [h.settings]; exact hi, fun _ => True.intro⟩⟩

end PythonDice
