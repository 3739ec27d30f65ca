import Verif.Proofs.NaiveOps

/-! Mixtures and rolls of dice with a law. -/

namespace PythonDice
open Spec
open Spec.Naive (Law Val mean sure push andThen uniform draws support interval faces rolls rollNum rollVal)

namespace Enum

/-! ## Mixtures -/

/-- The outcomes of an entry of a mixture. -/
def entryVals : RV.Entry ℤ → List ℤ
  | .num v => [v]
  | .rv r => r.vals
  | .blank => []

theorem contrib_vals {prod : ℕ} {w : ℤ} {e : RV.Entry ℤ} {l : List (ℤ × ℤ)} (h : e.contrib prod w = .ok l) {v : ℤ} (hv : v ∈ l.map Prod.fst) :
    v ∈ entryVals e := by
  cases e with
  | num x => cases h; simpa [entryVals] using hv
  | blank => cases h; simp at hv
  | rv r =>
    simp only [RV.Entry.contrib] at h
    split at h
    · cases h
    · cases h
      obtain ⟨x, hx, rfl⟩ := List.mem_map.1 hv
      exact (List.of_mem_zip hx).1

theorem fromRvs0_support {st : Settings} {rvs : List (RV.Entry ℤ)} {weights : Option (List ℤ)} {r : RV ℤ}
    (h : RV.fromRvs0 st rvs weights = .ok (some r)) (hg : ∀ e ∈ rvs, e.Good)
    (hw : ((RV.live rvs (weights.getD (List.replicate rvs.length 1))).map fun (ew : RV.Entry ℤ × ℤ) => (ew.2 : ℚ)).sum ≠ 0)
    {v : ℤ} (hv : v ∈ r.vals) : ∃ e ∈ rvs, v ∈ entryVals e := by
  unfold RV.fromRvs0 at h
  simp only at h
  split at h
  · cases h
  split at h
  · cases h
  rename_i hne hlen
  simp only [RV.bind_ok_iff] at h
  obtain ⟨parts, hp, r0, hr0, h⟩ := h
  cases h
  set ws := weights.getD (List.replicate rvs.length 1) with hws
  set rs := rvs.filter fun e => !e.isBlank with hrs
  set P := (rs.map RV.Entry.probSum).prod with hP
  have hall : ∀ x ∈ RV.live rvs ws, x.1.Good ∧ x.1.isBlank = false ∧ x.1.probSum ∣ P := by
    intro x hx
    have hmem : x.1 ∈ rs := (List.of_mem_zip hx).1
    have h1 := List.mem_filter.1 hmem
    exact ⟨hg _ h1.1, by simpa using h1.2, List.dvd_prod (List.mem_map_of_mem (f := RV.Entry.probSum) hmem)⟩
  have hPne : P ≠ 0 := by
    rw [hP]
    intro h0
    rw [List.prod_eq_zero_iff] at h0
    obtain ⟨e, he, h0⟩ := List.mem_map.1 h0
    have h1 := List.mem_filter.1 he
    have h2 := hg e h1.1
    cases e with
    | num v => simp [RV.Entry.probSum] at h0
    | blank => simp [RV.Entry.isBlank] at h1
    | rv r => exact h2.2 h0
  have hz := RV.parts_zsum hall hp
  have hlaw1 : ((RV.live rvs ws).map fun (ew : RV.Entry ℤ × ℤ) => (ew.2 : ℚ) * ew.1.law fun _ => 1).sum =
      ((RV.live rvs ws).map fun (ew : RV.Entry ℤ × ℤ) => (ew.2 : ℚ)).sum := by
    congr 1
    apply List.map_congr_left
    intro x hx
    obtain ⟨g1, g2, _⟩ := hall x hx
    have : x.1.law (fun _ => 1) = 1 := by
      cases hx1 : x.1 with
      | num v => rfl
      | blank => rw [hx1] at g2; simp [RV.Entry.isBlank] at g2
      | rv r =>
        rw [hx1] at g1
        apply Ex_const
        rw [mass_eq_sum, RV.pairs_map_snd r g1.1]
        exact_mod_cast g1.2
    rw [this, mul_one]
  have hPq : (P : ℚ) ≠ 0 := by exact_mod_cast hPne
  have hm : RV.zsum parts.flatten (fun _ => 1) ≠ 0 := by
    rw [hz, hlaw1]; exact mul_ne_zero hPq hw
  have hnn : ∀ x ∈ parts.flatten, 0 ≤ x.2 := fun x hx => (RV.mk'_ok hr0).2.1 _ (List.mem_map_of_mem (f := (·.2)) hx)
  have hmem := mk'_support hr0 (by
    have e : (parts.flatten.map (·.1)).zip ((parts.flatten.map (·.2)).map Int.toNat) = RV.natPairs parts.flatten := by
      rw [List.map_map, List.zip_map']; rfl
    rw [e, mass, RV.natPairs_wsum hnn]
    exact hm) hv
  rw [RV.mapM_ok_iff] at hp
  rw [List.map_flatten, List.mem_flatten] at hmem
  obtain ⟨l, hl, hvl⟩ := hmem
  obtain ⟨part, hpart, rfl⟩ := List.mem_map.1 hl
  have : ∃ ew ∈ RV.live rvs ws, ew.1.contrib P ew.2 = .ok part := by
    clear hz hr0 hnn hm hl hlaw1 hall hw
    generalize RV.live rvs ws = L at hp
    induction hp with
    | nil => cases hpart
    | cons hd _ ih =>
      rcases List.mem_cons.1 hpart with rfl | hpart
      · exact ⟨_, List.mem_cons_self, hd⟩
      · obtain ⟨ew, h1, h2⟩ := ih hpart
        exact ⟨ew, List.mem_cons_of_mem _ h1, h2⟩
  obtain ⟨ew, h1, h2⟩ := this
  exact ⟨ew.1, (List.mem_filter.1 (List.of_mem_zip h1).1).1, contrib_vals h2 hvl⟩

/-! ## Rolls -/

theorem fromSeq_rep {st : Settings} {s : List ℤ} (hs : s ≠ []) {d : RV ℤ} (h : RV.fromSeq st s = .ok d) :
    DieRep d (uniform s) ∧ d.src = none := by
  obtain ⟨d', h1, h2, h3, _, h5, h6, h7⟩ := fromSeq_spec st s hs
  rw [h] at h1
  cases h1
  exact ⟨⟨h2, h3, h6, pos_uniform s hs, fun f => by rw [h7, mean_uniform]⟩, h5⟩

theorem interval_ne_nil {a b : ℤ} (h : a ≤ b) : interval a b ≠ [] := by
  intro e
  have := congrArg List.length e
  simp only [interval, List.length_map, List.length_range, List.length_nil] at this
  omega

/-- What the die of a roll is. -/
def DieOf (v : Val) (x : Option (RV ℤ)) : Prop :=
  match faces v with
  | none => x = none
  | some b => ∃ r, x = some r ∧ DieRep r b ∧ Rep (.rv r) (rollNum 1 v b)

theorem full_asDie {I : Settings → Prop} {o : Obj} {v : Val} (h : Rep o v) : Full I (asDie o) (DieOf v) := by
  match o, v, h with
  | .num m, .num _, h =>
    cases h
    have key : ∀ s : List ℤ, s ≠ [] → faces (.num m) = some (uniform s) →
        Full I (some <$> M.ofSettings fun st => RV.fromSeq st s) (DieOf (.num m)) := by
      intro s hs hf
      refine Full.map (P := fun d => DieRep d (uniform s) ∧ d.src = none) (Full.ofSettings (fun st d _ hd => fromSeq_rep hs hd)
        fun st _ => (fromSeq_spec st s hs).elim fun _ e => .of_eq e.1) fun d hd => ?_
      simp only [DieOf, hf]
      exact ⟨d, rfl, hd.1, Rep.one hd.1 hd.2⟩
    simp only [asDie]
    split
    · rename_i h0
      exact key (pyRange 1 (m + 1)) (interval_ne_nil (b := m) (by omega)) (by simp only [faces, if_pos h0]; rfl)
    · split
      · rename_i h0 h1
        subst h1
        refine Full.map (P := fun d => d = ⟨[0], [1], none⟩) (Full.ofSettings (fun st d _ hd => ?_) fun st _ => .of_eq (fromConst_eq st 0))
          fun d hd => ?_
        · rw [fromConst_eq] at hd
          cases hd; rfl
        · subst hd
          exact ⟨_, rfl, DieRep.const 0 none, Rep.one (DieRep.const 0 none) rfl⟩
      · rename_i h0 h1
        exact key (pyRange m 0) (by simpa [interval, pyRange] using interval_ne_nil (a := m) (b := -1) (by omega)) (by simp only [faces, if_neg h0, if_neg h1]; rfl)
  | .seq s, .seq _, h =>
    cases h
    simp only [asDie]
    split
    · rename_i h0
      have : s = [] := List.length_eq_zero_iff.1 h0
      subst this
      exact Full.pure rfl
    · rename_i h0
      have hs : s ≠ [] := fun e => h0 (by rw [e]; rfl)
      refine Full.map (P := fun d => DieRep d (uniform s) ∧ d.src = none) (Full.ofSettings (fun st d _ hd => fromSeq_rep hs hd)
        fun st _ => (fromSeq_spec st s hs).elim fun _ e => .of_eq e.1) fun d hd => ?_
      simp only [DieOf, faces, if_neg hs]
      exact ⟨d, rfl, hd.1, Rep.one hd.1 hd.2⟩
  | .blank b, .blank _, h => exact Full.pure rfl
  | .rv r, .die l p, h => exact Full.pure ⟨r, rfl, h.1, h⟩

theorem rolls_rep {k : ℤ} {d r : RV ℤ} {b : Law} (hd : DieRep d b) (hk : k ≠ 1) (h : RollIntOk k d r) : DieRep r (rolls k b) := by
  refine ⟨h.proper, h.canon hk, h.nz hd.nz, (hd.pos.draws _).push _, fun f => ?_⟩
  rw [h.law, hd.draws, rolls, mean_push]
  rcases lt_trichotomy k 0 with h0 | rfl | h0
  · simp only [if_pos h0, Int.sign_eq_neg_one_of_neg h0, neg_one_mul]
  · simp [draws]
  · simp only [if_neg (not_lt.2 h0.le), Int.sign_eq_one_of_pos h0, one_mul]

theorem rolls_one {d : RV ℤ} {b : Law} (hd : DieRep d b) : DieRep d (rolls 1 b) := by
  refine hd.congr ((hd.pos.draws _).push _) fun f => ?_
  rw [rolls, mean_push, ← hd.draws]
  simp only [Int.natAbs_one, ExN, List.sum_cons, List.sum_nil, add_zero]
  exact hd.law f

theorem rolls_rep' {k : ℤ} {d r : RV ℤ} {b : Law} (hd : DieRep d b) (h : RollIntOk k d r) : DieRep r (rolls k b) := by
  by_cases hk : k = 1
  · subst hk
    exact (rolls_one hd).same (h.one rfl).1 (h.one rfl).2
  · exact rolls_rep hd hk h

theorem full_rollNum {I : Settings → Prop} (k : ℤ) {d : RV ℤ} {v : Val} {b : Law} (hd : DieRep d b) (h1 : Rep (.rv d) (rollNum 1 v b)) :
    Full I (Obj.rv <$> rollInt k d) fun o => Rep o (rollNum k v b) := by
  by_cases hk : k = 1
  · subst hk
    have e : rollInt 1 d = pure d := rfl
    rw [e]
    exact Full.map (P := fun x => x = d) (Full.pure rfl) fun x hx => by rw [hx]; exact h1
  · refine Full.map (full_rollInt k d hd.proper) fun r hr => ?_
    have hR := rolls_rep hd hk hr
    have e0 : rollNum k v b = if 2 ≤ k then .die (rolls k b) (some (k.toNat, b)) else Naive.one (rolls k b) := by
      unfold rollNum; rw [if_neg hk]
    rw [e0]
    split
    · rename_i h2
      refine ⟨hR, fun n c e => ?_⟩
      cases e
      have e : r.source = (k.natAbs, ⟨d.vals, d.probs, none⟩) := by rw [RV.source, hr.src h2]
      rw [e]
      exact ⟨by change k.natAbs = k.toNat; omega, hd.same rfl rfl⟩
    · exact Rep.one hR (hr.zero (by omega))

theorem rollIntOk_mem {d : RV ℤ} {vs : List ℤ} {dies : List (RV ℤ)} (h : List.Forall₂ (fun v r => RollIntOk v d r) vs dies) :
    ∀ e ∈ dies.map RV.Entry.rv, ∃ k ∈ vs, ∃ die, e = .rv die ∧ RollIntOk k d die := by
  intro e he
  obtain ⟨die, hdie, rfl⟩ := List.mem_map.1 he
  clear he
  induction h with
  | nil => cases hdie
  | cons h _ ih =>
    rcases List.mem_cons.1 hdie with rfl | hdie
    · exact ⟨_, List.mem_cons_self, _, rfl, h⟩
    · obtain ⟨k, h1, h2⟩ := ih hdie
      exact ⟨k, List.mem_cons_of_mem _ h1, h2⟩

theorem rollIntOk_good {d : RV ℤ} {vs : List ℤ} {dies : List (RV ℤ)} (h : List.Forall₂ (fun v r => RollIntOk v d r) vs dies) :
    ∀ e ∈ dies.map RV.Entry.rv, e.Good := by
  intro e he
  obtain ⟨k, hk, die, rfl, hR⟩ := rollIntOk_mem h e he
  exact ⟨hR.proper.len, by have := hR.proper.sum_pos; omega⟩

/-- The mixture of the rolls, before its weights are limited. -/
theorem rollDie_rep {st : Settings} {X d : RV ℤ} {x b : Law} (hX : DieRep X x) (hd : DieRep d b) {dies : List (RV ℤ)}
    (hdies : List.Forall₂ (fun v r => RollIntOk v d r) X.vals dies) {o : Option (RV ℤ)}
    (hx : RV.fromRvs0 st (dies.map RV.Entry.rv) (some (X.probs.map fun p : ℕ => (p : ℤ))) = .ok o) :
    ∃ r, o = some r ∧ DieRep r (andThen x fun k => rolls k b) := by
  have hK : List.Forall₂ (fun v die => die.Proper ∧ ∀ f, Ex die.pairs f = (fun (n : ℤ) (f : ℤ → ℚ) => mean (rolls n b) f) v f) X.vals dies :=
    hdies.imp fun v r h => ⟨h.proper, (rolls_rep' hd h).law⟩
  have hl : dies.length = X.probs.length := by rw [← hK.length_eq, hX.proper.len]
  have hne : dies ≠ [] := by
    intro e
    apply hX.proper.nonempty
    rw [e] at hK
    exact List.forall₂_nil_right_iff.1 hK
  cases o with
  | none =>
    obtain ⟨die, hdie⟩ := List.exists_mem_of_ne_nil _ hne
    cases (RV.fromRvs0_blank _ _ _).1 hx _ (List.mem_map_of_mem hdie)
  | some r =>
    refine ⟨r, rfl, ?_⟩
    obtain ⟨hp, hc, _, law⟩ := mixRolls0 hX.proper hK hx
    refine DieRep.of hp hc (hX.pos.andThen fun _ _ => (hd.pos.draws _).push _) (fun f => by rw [law, hX.law, mean_andThen]) fun v hv => ?_
    have hlive : RV.live (dies.map RV.Entry.rv)
        ((some (X.probs.map fun p : ℕ => (p : ℤ))).getD (List.replicate (dies.map RV.Entry.rv).length 1)) =
        (dies.map RV.Entry.rv).zip (X.probs.map fun p : ℕ => (p : ℤ)) := live_rvs _ _ (by simpa using hl)
    have hsum : ∀ (ds : List (RV.Entry ℤ)) (ps : List ℕ), ds.length = ps.length →
        ((ds.zip (ps.map fun p : ℕ => (p : ℤ))).map fun ew => (ew.2 : ℚ)).sum = (ps.sum : ℚ) := by
      intro ds
      induction ds with
      | nil => intro ps h; cases ps <;> simp_all
      | cons e ds ih =>
        intro ps h
        cases ps with
        | nil => simp at h
        | cons p ps =>
          simp only [List.map_cons, List.zip_cons_cons, List.sum_cons]
          rw [ih ps (by simpa using h)]
          push_cast; rfl
    obtain ⟨e, he, hv⟩ := fromRvs0_support hx (rollIntOk_good hdies) (by
      rw [hlive, hsum _ _ (by simpa using hl)]
      have := hX.proper.sum_pos
      exact_mod_cast (by omega : X.probs.sum ≠ 0)) hv
    obtain ⟨k, hk, die, rfl, hR⟩ := rollIntOk_mem hdies e he
    exact mem_fst_andThen.2 ⟨k, (hX.mem_vals k).1 hk, ((rolls_rep' hd hR).mem_vals v).1 hv⟩

theorem rollDie_ok (st : Settings) {X d : RV ℤ} (hX : X.Proper) {dies : List (RV ℤ)}
    (hdies : List.Forall₂ (fun v r => RollIntOk v d r) X.vals dies) :
    ∃ x, RV.fromRvs0 st (dies.map RV.Entry.rv) (some (X.probs.map fun p : ℕ => (p : ℤ))) = .ok x := by
  refine Fine.fromRvs0 st (by simp [← hdies.length_eq, hX.len]) (fun w hw => ?_) (rollIntOk_good hdies)
  obtain ⟨p, _, rfl⟩ := List.mem_map.1 hw
  positivity

theorem full_rollDie {I : Settings → Prop} {X d : RV ℤ} {x b : Law} (hX : DieRep X x) (hd : DieRep d b) :
    Full I (rollRV X d) fun o => Rep o (.die (andThen x fun k => rolls k b) none) := by
  unfold rollRV
  have h1 := Full.forList (I := I) (f := fun v => rollInt v d) (P := fun v r => RollIntOk v d r) (l := X.vals)
    fun v _ => full_rollInt v d hd.proper
  have hT : ∀ dies : List (RV ℤ), Triple I (M.ofLimited fun st =>
      RV.fromRvs st (dies.map RV.Entry.rv) (some (X.probs.map fun p : ℕ => (p : ℤ)))) fun _ => True :=
    fun dies => Triple.ofLimited fun _ _ _ _ => True.intro
  have hM : ∀ r : Option (RV ℤ), Triple I (match r with
      | some r => pure (.rv (r.setSource 1 d))
      | none => M.throw .notImplemented : M Obj) fun _ => True := by
    intro r
    cases r
    · exact Triple.throw
    · exact Triple.pure True.intro
  refine Full.bind h1 (fun dies hdies => ?_) fun dies => Triple.bind' (hT dies) hM
  refine Full.bind (P := fun o => ∃ r, o = some r ∧ DieRep r (andThen x fun k => rolls k b)) (Full.ofLimited ?_ ?_) (fun o ho => ?_) hM
  · exact fun st o _ hx => rollDie_rep hX hd hdies (RV.fromRvs0_of hx)
  · exact fun st _ => Fine.of_fromRvs0 (rollDie_ok st hX.proper hdies)
  · obtain ⟨r, rfl, ho⟩ := ho
    exact Full.pure ⟨ho.same rfl rfl, fun k b e => by cases e⟩

/-- The rest of a roll once the die is known. -/
def rollWith (n : Obj) : Option (RV ℤ) → M Obj
  | none => pure (.blank false)
  | some die => match n with
    | .num k => .rv <$> rollInt k die
    | .seq s => .rv <$> rollInt s.sum die
    | .rv x => rollRV x die
    | .blank _ => pure (.blank true)

/-- The same for the values. -/
def rollValWith (u v : Val) : Option Law → Val
  | none => .blank false
  | some b => match u with
    | .num k => rollNum k v b
    | .seq s => rollNum s.sum v b
    | .die x _ => .die (andThen x fun k => rolls k b) none
    | .blank _ => .blank true

theorem triple_rollWith {I : Settings → Prop} (n : Obj) (o : Option (RV ℤ)) : Triple I (rollWith n o) fun _ => True := by
  cases o with
  | none => exact Triple.pure True.intro
  | some die =>
    cases n with
    | num k => exact Triple.map (triple_rollInt' k die) fun _ _ => True.intro
    | seq s => exact Triple.map (triple_rollInt' s.sum die) fun _ _ => True.intro
    | blank c => exact Triple.pure True.intro
    | rv x =>
      refine Triple.bind' (Triple.mono (Triple.forList (P := fun _ _ => True) fun v _ => triple_rollInt' v die) fun _ _ => True.intro)
        fun ds => Triple.bind' (Triple.ofLimited fun _ _ _ _ => True.intro) fun r => ?_
      cases r
      · exact Triple.throw
      · exact Triple.pure True.intro

theorem full_roll {I : Settings → Prop} {n d : Obj} {u v : Val} (hn : Rep n u) (hd : Rep d v) :
    Full I (roll n d) fun o => Rep o (rollVal u v) := by
  by_cases hb : ∃ c, v = .blank c
  · obtain ⟨c, rfl⟩ := hb
    rw [hd.blank_inv]
    have : roll n (.blank c) = pure (.blank false) := by cases n <;> rfl
    rw [this]
    refine Full.pure ?_
    cases u <;> rfl
  · by_cases hc : ∃ c, u = .blank c
    · obtain ⟨c, rfl⟩ := hc
      rw [hn.blank_inv]
      match d, v, hd with
      | .num _, .num _, _ => exact Full.pure rfl
      | .seq _, .seq _, _ => exact Full.pure rfl
      | .rv _, .die _ _, _ => exact Full.pure rfl
      | .blank c, .blank _, hd => cases hd; exact absurd ⟨c, rfl⟩ hb
    · have e : roll n d = asDie d >>= rollWith n := by
        match d, v, hd, n, u, hn with
        | .blank c, .blank _, hd, _, _, _ => cases hd; exact absurd ⟨c, rfl⟩ hb
        | _, _, _, .blank c, .blank _, hn => cases hn; exact absurd ⟨c, rfl⟩ hc
        | .num _, .num _, _, .num _, .num _, _ => rfl
        | .num _, .num _, _, .seq _, .seq _, _ => rfl
        | .num _, .num _, _, .rv _, .die _ _, _ => rfl
        | .seq _, .seq _, _, .num _, .num _, _ => rfl
        | .seq _, .seq _, _, .seq _, .seq _, _ => rfl
        | .seq _, .seq _, _, .rv _, .die _ _, _ => rfl
        | .rv _, .die _ _, _, .num _, .num _, _ => rfl
        | .rv _, .die _ _, _, .seq _, .seq _, _ => rfl
        | .rv _, .die _ _, _, .rv _, .die _ _, _ => rfl
      rw [e]
      refine Full.bind (full_asDie hd) (fun o ho => ?_) (triple_rollWith n)
      have e2 : rollVal u v = rollValWith u v (faces v) := by
        cases v <;> first | exact absurd ⟨_, rfl⟩ hb | (cases u <;> first | exact absurd ⟨_, rfl⟩ hc | rfl)
      rw [e2]
      unfold DieOf at ho
      cases hf : faces v with
      | none =>
        rw [hf] at ho
        simp only at ho
        subst ho
        exact Full.pure rfl
      | some b =>
        rw [hf] at ho
        obtain ⟨r, rfl, h1, h2⟩ := ho
        match n, u, hn with
        | .num k, .num _, hn => cases hn; exact full_rollNum k h1 h2
        | .seq s, .seq _, hn => cases hn; exact full_rollNum s.sum h1 h2
        | .rv x, .die l p, hn => exact full_rollDie hn.1 h1
        | .blank c, .blank _, hn => cases hn; exact absurd ⟨c, rfl⟩ hc

end Enum
end PythonDice
