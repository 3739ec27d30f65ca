import Verif.Proofs.Identities
import Verif.Proofs.Replay

/-!
# Dice in lowest terms
-/

namespace PythonDice
open Spec

/-! ## The constructors -/

theorem list_prod_pos {l : List ℕ} (h : ∀ p ∈ l, 0 < p) : 0 < l.prod := by
  induction l with
  | nil => exact Nat.one_pos
  | cons x l ih =>
    rw [List.prod_cons]
    exact Nat.mul_pos (h x List.mem_cons_self) (ih fun p hp => h p (List.mem_cons_of_mem _ hp))

namespace RV

theorem groupLoop_all_pos {cur : ℤ × ℕ} {rest acc : List (ℤ × ℕ)} (hc : 0 < cur.2) (hr : ∀ x ∈ rest, 0 < x.2) (ha : ∀ x ∈ acc, 0 < x.2) :
    ∀ x ∈ groupLoop cur rest acc, 0 < x.2 := by
  induction rest generalizing cur acc with
  | nil =>
    intro x hx
    rw [groupLoop, List.mem_append, List.mem_singleton] at hx
    rcases hx with hx | rfl
    · exact ha x hx
    · exact hc
  | cons p rest ih =>
    rw [groupLoop]
    have hp := hr p List.mem_cons_self
    have hr' : ∀ x ∈ rest, 0 < x.2 := fun x hx => hr x (List.mem_cons_of_mem _ hx)
    split
    · exact ih (Nat.add_pos_left hp _) hr' ha
    · refine ih hp hr' fun x hx => ?_
      rw [List.mem_append, List.mem_singleton] at hx
      rcases hx with hx | rfl
      · exact ha x hx
      · exact hc

theorem newZipped_all_pos {z : List (ℤ × ℕ)} (h : ∀ x ∈ z, 0 < x.2) (b : Bool) : ∀ x ∈ newZipped z b, 0 < x.2 := by
  have h' : ∀ x ∈ z.reverse, 0 < x.2 := fun x hx => h x (List.mem_reverse.1 hx)
  intro x hx
  unfold newZipped at hx
  cases hz : z.reverse with
  | nil =>
    rw [hz] at hx
    cases b <;> cases hx
  | cons c rest =>
    rw [hz] at hx h'
    have key := groupLoop_all_pos (h' c List.mem_cons_self) (fun x hx => h' x (List.mem_cons_of_mem _ hx)) (acc := []) (fun x hx => by cases hx)
    cases b with
    | false => exact key x hx
    | true => exact key x (List.mem_of_mem_filter (p := fun v : ℤ × ℕ => decide (v.2 ≠ 0)) hx)

/-- Positive weights stay positive. -/
theorem mk'_all_pos {st : Settings} {vals : List ℤ} {probs : List ℤ} {t : Option Bool} {r : RV ℤ} (h : mk' st vals probs t = .ok r)
    (hp : ∀ p ∈ probs, 0 < p) : ∀ p ∈ r.probs, 0 < p := by
  obtain ⟨_, _, vs, _, hr⟩ := mk'_ok h
  rcases hr with ⟨_, rfl⟩ | ⟨_, rfl⟩
  · intro p hp
    rw [List.mem_singleton.1 hp]
    exact Nat.one_pos
  · have hc : ∀ x ∈ core st vs probs, 0 < x.2 := by
      refine newZipped_all_pos (fun x hx => ?_) _
      have h1 := (List.of_mem_zip ((getZip_perm _ _).mem_iff.1 hx)).2
      obtain ⟨p, h2, h3⟩ := List.mem_map.1 h1
      have := hp p h2
      omega
    intro p hp
    simp only [normPairs, List.map_map, List.mem_map] at hp
    obtain ⟨x, hx, rfl⟩ := hp
    have hd := normFactor_dvd ((core st vs probs).map (·.2)) x.2 (List.mem_map_of_mem (f := (·.2)) hx)
    exact Nat.div_pos (Nat.le_of_dvd (hc x hx) hd) (normFactor_pos _)

end RV

/-- A die as it should be; `b` says whether its weights, too, are to be as they should. -/
structure SoundDie (b : Bool) (d : RV ℤ) : Prop where
  len : d.vals.length = d.probs.length
  sorted : d.vals.Pairwise (· < ·)
  nonempty : d.vals ≠ []
  full : b = true → (∀ p ∈ d.probs, 0 < p) ∧ Coprime d.probs ∧ ∀ n vs ps, d.src = some (n, vs, ps) → GoodDie ⟨vs, ps, none⟩

namespace SoundDie

theorem good {d : RV ℤ} (h : SoundDie true d) : GoodDie d := ⟨h.len, h.sorted, h.nonempty, (h.full rfl).1, (h.full rfl).2.1⟩

theorem bare {b : Bool} {d : RV ℤ} (h : SoundDie b d) : b = true → GoodDie ⟨d.vals, d.probs, none⟩ := fun hb =>
  ⟨h.len, h.sorted, h.nonempty, (h.full hb).1, (h.full hb).2.1⟩

theorem source {b : Bool} {d : RV ℤ} (h : SoundDie b d) : b = true → GoodDie d.source.2 := by
  intro hb
  unfold RV.source
  split
  · exact ⟨h.len, h.sorted, h.nonempty, (h.full hb).1, (h.full hb).2.1⟩
  · rename_i n vs ps e
    exact (h.full hb).2.2 n vs ps e

theorem setSource {b : Bool} {d e : RV ℤ} (h : SoundDie b d) (he : SoundDie b e) (n : ℕ) : SoundDie b (d.setSource n e) := by
  refine ⟨h.len, h.sorted, h.nonempty, fun hb => ⟨(h.full hb).1, (h.full hb).2.1, fun m vs ps hs => ?_⟩⟩
  cases hs
  exact he.bare hb

theorem mk' {b : Bool} {st : Settings} {vals probs : List ℤ} {t : Option Bool} {r : RV ℤ} (h : RV.mk' st vals probs t = .ok r)
    (hp : b = true → ∀ p ∈ probs, 0 < p) : SoundDie b r := by
  have hc := RV.mk'_canonical h
  refine ⟨hc.len, hc.sorted, hc.nonempty, fun hb => ?_⟩
  have h1 := RV.mk'_all_pos h (hp hb)
  have hne : r.probs ≠ [] := fun e => hc.nonempty (by
    have := hc.len
    rw [e, List.length_nil, List.length_eq_zero_iff] at this
    exact this)
  obtain ⟨p, hpm⟩ := List.exists_mem_of_ne_nil _ hne
  refine ⟨h1, hc.coprime ⟨p, hpm, (h1 p hpm).ne'⟩, fun n vs ps hs => ?_⟩
  rw [mk'_src h] at hs
  cases hs

theorem probLimit {b w : Bool} {d r : RV ℤ} (hd : SoundDie b d) (h : RV.probLimit d = .ok (r, w)) (hw : b = true → w = false) : SoundDie b r := by
  cases b with
  | true =>
    rw [hw rfl] at h
    rw [RV.probLimit_false h]
    exact hd
  | false =>
    unfold RV.probLimit at h
    split at h
    · cases h
      exact hd
    · rcases hn : RV.normConst d.sumProbs with e | nc
      · rw [hn] at h
        cases h
      · rw [hn] at h
        change (if nc = 0 then _ else _) = _ at h
        split at h
        · cases h
        · cases h
          refine ⟨?_, hd.sorted, hd.nonempty, fun h => by cases h⟩
          change d.vals.length = (d.probs.map _).length
          rw [List.length_map]
          exact hd.len

theorem fromConst {b : Bool} {st : Settings} {n : ℤ} {r : RV ℤ} (h : RV.fromConst st n = .ok r) : SoundDie b r :=
  mk' h fun _ p hp => by rw [List.mem_singleton.1 hp]; exact one_pos

theorem fromSeq {b : Bool} {st : Settings} {l : List ℤ} {r : RV ℤ} (h : RV.fromSeq st l = .ok r) : SoundDie b r := by
  unfold RV.fromSeq at h
  split at h
  · exact mk' h fun _ p hp => by rw [List.mem_singleton.1 hp]; exact one_pos
  · exact mk' h fun _ p hp => by rw [List.eq_of_mem_replicate hp]; exact one_pos

theorem cast_pos {d : RV ℤ} {b : Bool} (hd : SoundDie b d) : b = true → ∀ p ∈ d.probs.map fun p : ℕ => (p : ℤ), 0 < p := by
  intro hb p hp
  obtain ⟨q, hq, rfl⟩ := List.mem_map.1 hp
  exact_mod_cast (hd.full hb).1 q hq

theorem mapVals {b : Bool} {st : Settings} {d r : RV ℤ} {op : ℤ → Except Err ℤ} (hd : SoundDie b d) (h : RV.mapVals st d op = .ok r) : SoundDie b r := by
  unfold RV.mapVals at h
  rcases hm : d.vals.mapM op with e | vs
  · rw [hm] at h
    cases h
  · rw [hm] at h
    exact mk' h hd.cast_pos

theorem invert {b : Bool} {st : Settings} {d r : RV ℤ} (h : RV.invert st d = .ok r) : SoundDie b r := by
  unfold RV.invert at h
  split at h <;> exact fromConst h

theorem rdictSet_pos {d : List (ℤ × ℕ)} (hd : ∀ x ∈ d, 0 < x.2) {k : ℤ} {v : ℕ} (hv : 0 < v) : ∀ x ∈ RV.rdictSet d k v, 0 < x.2 := by
  induction d with
  | nil =>
    intro x hx
    rw [RV.rdictSet, List.mem_singleton] at hx
    rw [hx]
    exact hv
  | cons y d ih =>
    have h1 := hd y List.mem_cons_self
    have h2 : ∀ x ∈ d, 0 < x.2 := fun x hx => hd x (List.mem_cons_of_mem _ hx)
    obtain ⟨k', v'⟩ := y
    intro x hx
    rw [RV.rdictSet] at hx
    split at hx
    · rcases List.mem_cons.1 hx with rfl | hx
      · exact Nat.add_pos_left h1 _
      · exact h2 x hx
    · rcases List.mem_cons.1 hx with rfl | hx
      · exact h1
      · exact ih h2 x hx

theorem foldlM_keeps {α β : Type} {I : β → Prop} {f : β → α → Except Err β} {l : List α} (hf : ∀ d, I d → ∀ x ∈ l, ∀ e, f d x = .ok e → I e) :
    ∀ {d e : β}, I d → l.foldlM f d = .ok e → I e := by
  induction l with
  | nil =>
    intro d e hd h
    cases h
    exact hd
  | cons x l ih =>
    intro d e hd h
    rw [List.foldlM_cons] at h
    rcases hx : f d x with er | d'
    · rw [hx] at h
      cases h
    · rw [hx] at h
      exact ih (fun d hd y hy => hf d hd y (List.mem_cons_of_mem _ hy)) (hf d hd x List.mem_cons_self d' hx) h

theorem fastConvolve_pos {p q : List (ℤ × ℕ)} (hp : ∀ x ∈ p, 0 < x.2) (hq : ∀ x ∈ q, 0 < x.2) {op : ℤ → ℤ → Except Err ℤ} {r : List (ℤ × ℕ)}
    (h : RV.fastConvolve p q op = .ok r) : ∀ x ∈ r, 0 < x.2 := by
  unfold RV.fastConvolve at h
  rcases hm : p.foldlM (init := ([] : List (ℤ × ℕ))) (fun d kv1 => q.foldlM (init := d) fun d kv2 => do
      let k ← op kv1.1 kv2.1
      return RV.rdictSet d k (kv1.2 * kv2.2)) with e | d
  · rw [hm] at h
    cases h
  · rw [hm] at h
    cases h
    have hd : ∀ x ∈ d, 0 < x.2 := by
      refine foldlM_keeps (I := fun d : List (ℤ × ℕ) => ∀ x ∈ d, 0 < x.2) (fun d hd x hx e he => ?_) (fun _ hx => by cases hx) hm
      refine foldlM_keeps (I := fun d : List (ℤ × ℕ) => ∀ x ∈ d, 0 < x.2) (fun d hd y hy e he => ?_) hd he
      rcases ho : op x.1 y.1 with er | k
      · rw [ho] at he
        cases he
      · rw [ho] at he
        cases he
        exact rdictSet_pos hd (Nat.mul_pos (hp x hx) (hq y hy))
    intro x hx
    exact hd x ((List.perm_insertionSort _ _).mem_iff.1 hx)

theorem pairs_pos {b : Bool} {d : RV ℤ} (hd : SoundDie b d) : b = true → ∀ x ∈ d.pairs, 0 < x.2 := fun hb x hx =>
  (hd.full hb).1 _ (List.of_mem_zip hx).2

theorem convolve {b w : Bool} {st : Settings} {d e r : RV ℤ} {op : ℤ → ℤ → Except Err ℤ} (hd : SoundDie b d) (he : SoundDie b e)
    (h : RV.convolveRV st d e op = .ok (r, w)) (hw : b = true → w = false) : SoundDie b r := by
  unfold RV.convolveRV at h
  rcases hk : RV.fastConvolve d.pairs e.pairs op with er | kv
  · rw [hk] at h
    cases h
  · rw [hk] at h
    change (RV.mk' st (kv.map (·.1)) (kv.map fun x => (x.2 : ℤ))).bind RV.probLimit = _ at h
    rw [RV.bind_ok_iff] at h
    obtain ⟨r0, h0, h1⟩ := h
    refine probLimit (mk' h0 fun hb p hp => ?_) h1 hw
    obtain ⟨x, hx, rfl⟩ := List.mem_map.1 hp
    exact_mod_cast fastConvolve_pos (hd.pairs_pos hb) (he.pairs_pos hb) hk x hx

/-! ## Mixtures -/

/-- The same of what is mixed. -/
def _root_.PythonDice.SoundEntry (b : Bool) : RV.Entry ℤ → Prop
  | .rv r => SoundDie b r
  | _ => True

theorem probSum_pos {e : RV.Entry ℤ} (h : SoundEntry true e) : 0 < e.probSum := by
  cases e with
  | num v => exact Nat.one_pos
  | blank => exact Nat.one_pos
  | rv r =>
    have hg := SoundDie.good h
    have := RV.Proper.sum_pos (Enum.GoodDie.proper hg)
    exact this

theorem contrib_pos {e : RV.Entry ℤ} (h : SoundEntry true e) {prod : ℕ} (hd : e.probSum ∣ prod) (hp : 0 < prod) {w : ℤ} (hw : 0 < w)
    {l : List (ℤ × ℤ)} (hl : e.contrib prod w = .ok l) : ∀ x ∈ l, 0 < x.2 := by
  cases e with
  | num v =>
    cases hl
    intro x hx
    rw [List.mem_singleton.1 hx]
    exact mul_pos hw (by exact_mod_cast hp)
  | blank =>
    cases hl
    exact fun x hx => by cases hx
  | rv r =>
    unfold RV.Entry.contrib at hl
    dsimp only at hl
    split at hl
    · cases hl
    · cases hl
      intro x hx
      obtain ⟨p, hpm, hxe⟩ := List.mem_map.1 (List.of_mem_zip hx).2
      rw [← hxe]
      have h1 : 0 < p := (SoundDie.good h).pos p hpm
      have h2 : 0 < prod / r.sumProbs := Nat.div_pos (Nat.le_of_dvd hp hd) (probSum_pos h)
      have h1' : (0 : ℤ) < p := by exact_mod_cast h1
      have h2' : (0 : ℤ) < ((prod / r.sumProbs : ℕ) : ℤ) := by exact_mod_cast h2
      exact mul_pos (mul_pos h1' hw) h2'

theorem live_mem {es : List (RV.Entry ℤ)} {ws : List ℤ} {x : RV.Entry ℤ × ℤ} (h : x ∈ RV.live es ws) :
    x.1 ∈ es.filter (fun e => !e.isBlank) ∧ x.2 ∈ ws := by
  have hf : ∀ (es : List (RV.Entry ℤ)) (ws : List ℤ), ∀ y ∈ RV.filterWeights es ws, y ∈ ws := by
    intro es
    induction es with
    | nil => exact fun ws y hy => hy
    | cons e es ih =>
      intro ws y hy
      cases ws with
      | nil => cases hy
      | cons v ws =>
        rw [RV.filterWeights] at hy
        split at hy
        · exact List.mem_cons_of_mem _ (ih ws y hy)
        · rcases List.mem_cons.1 hy with rfl | hy
          · exact List.mem_cons_self
          · exact List.mem_cons_of_mem _ (ih ws y hy)
  have h' := List.of_mem_zip (a := x.1) (b := x.2) h
  exact ⟨h'.1, hf es ws _ h'.2⟩

theorem forall2_right_mem {α β : Type} {R : α → β → Prop} {l : List α} {m : List β} (h : List.Forall₂ R l m) : ∀ y ∈ m, ∃ x ∈ l, R x y := by
  induction h with
  | nil => exact fun y hy => by cases hy
  | cons hxy _ ih =>
    intro y hy
    rcases List.mem_cons.1 hy with rfl | hy
    · exact ⟨_, List.mem_cons_self, hxy⟩
    · obtain ⟨x, hx, hr⟩ := ih y hy
      exact ⟨x, List.mem_cons_of_mem _ hx, hr⟩

theorem fromRvs {b w : Bool} {st : Settings} {es : List (RV.Entry ℤ)} {ws : List ℤ} {r : RV ℤ} (he : ∀ e ∈ es, SoundEntry b e)
    (hws : b = true → ∀ x ∈ ws, 0 < x) (h : RV.fromRvs st es (some ws) = .ok (some r, w)) (hw : b = true → w = false) : SoundDie b r := by
  rw [RV.fromRvs_eq] at h
  dsimp only at h
  split at h
  · cases h
  · split at h
    · cases h
    · rw [RV.bind_ok_iff] at h
      obtain ⟨parts, h1, h⟩ := h
      rw [RV.bind_ok_iff] at h
      obtain ⟨r0, h2, h⟩ := h
      rw [RV.bind_ok_iff] at h
      obtain ⟨⟨r1, w1⟩, h3, h⟩ := h
      cases h
      refine probLimit (mk' h2 fun hb p hp => ?_) h3 hw
      subst hb
      obtain ⟨x, hx, rfl⟩ := List.mem_map.1 hp
      obtain ⟨l, hl, hxl⟩ := List.mem_flatten.1 hx
      obtain ⟨e, hem, hel⟩ := forall2_right_mem ((RV.mapM_ok_iff _ _ _).1 h1) l hl
      obtain ⟨h4, h5⟩ := live_mem hem
      have hall : ∀ e ∈ es.filter (fun e => !e.isBlank), SoundEntry true e := fun e hm => he e (List.mem_of_mem_filter hm)
      refine contrib_pos (hall _ h4) (List.dvd_prod (List.mem_map_of_mem h4)) ?_ (hws rfl _ h5) hel x hxl
      refine list_prod_pos fun p hp => ?_
      obtain ⟨e', he', rfl⟩ := List.mem_map.1 hp
      exact probSum_pos (hall e' he')

/-! ## The rolls of a pool -/

theorem expanded_pos {d : RV ℤ} (hd : SoundDie true d) : ∀ x ∈ d.expandedRolls, 0 < x.2 := by
  have hs := hd.source rfl
  intro x hx
  unfold RV.expandedRolls at hx
  dsimp only at hx
  split at hx
  · exact hs.pos _ (List.of_mem_zip hx).2
  · obtain ⟨roll, hr, rfl⟩ := List.mem_map.1 hx
    dsimp only
    rw [Pool.rollWeight_eq, Pool.factorial_eq, Pool.cnt_nil, one_mul, one_mul]
    dsimp only
    have hnd : d.source.2.vals.reverse.Nodup := List.nodup_reverse.2 (hs.sorted.imp ne_of_lt)
    have h1 := Pool.den_dvd _ hnd _ roll hr
    refine Nat.mul_pos (Nat.div_pos (Nat.le_of_dvd (Nat.factorial_pos _) h1) (Pool.denFrom_pos _ _)) ?_
    refine list_prod_pos fun p hp => ?_
    obtain ⟨v, hv, rfl⟩ := List.mem_map.1 hp
    have hvm := List.mem_reverse.1 ((Pool.combos_mem hr).2 v hv)
    have hpr : (d.source.2.pairs.map (·.1)).Nodup := by
      rw [RV.pairs_map_fst _ hs.len]
      exact hs.sorted.imp ne_of_lt
    rw [← RV.pairs_map_fst _ hs.len] at hvm
    obtain ⟨y, hy, rfl⟩ := List.mem_map.1 hvm
    change 0 < (List.lookup y.1 d.source.2.pairs).getD 0
    rw [RV.lookup_of_mem hpr hy]
    exact hs.pos _ (List.of_mem_zip hy).2

theorem kth {b w : Bool} {st : Settings} {d r : RV ℤ} {n : ℕ} {k : ℤ} (hd : b = true → GoodDie d)
    (h : RV.kthOrderStatistic st d n k = .ok (some r, w)) (hw : b = true → w = false) : SoundDie b r := by
  cases b with
  | false =>
    unfold RV.kthOrderStatistic at h
    simp only [bind] at h
    rw [RV.bind_ok_iff] at h
    obtain ⟨c, _, h⟩ := h
    split at h
    · cases h
    · rw [RV.bind_ok_iff] at h
      obtain ⟨u, hu, h⟩ := h
      rw [RV.bind_ok_iff] at h
      obtain ⟨r0, h0, h⟩ := h
      rw [RV.bind_ok_iff] at h
      obtain ⟨⟨r1, w1⟩, h1, h⟩ := h
      cases h
      exact probLimit (mk' h0 (fun h => by cases h)) h1 hw
  | true =>
    rw [hw rfl] at h
    have hk : 1 ≤ k ∧ k ≤ n := by
      have hr : 1 ≤ RV.ascRank st n k ∧ RV.ascRank st n k ≤ n := by
        by_contra hc
        unfold RV.kthOrderStatistic at h
        simp only [bind] at h
        rw [RV.bind_ok_iff] at h
        obtain ⟨c, _, h⟩ := h
        rw [if_pos (by omega)] at h
        cases h
      unfold RV.ascRank at hr
      split at hr <;> omega
    obtain ⟨low, hl⟩ : ∃ low, st.positionOrder = Enum.order low := by
      cases st.positionOrder
      · exact ⟨false, rfl⟩
      · exact ⟨true, rfl⟩
    obtain ⟨h1, h2⟩ := Enum.kth_rep hl (Enum.rep_good (hd rfl)).1 hk h
    refine ⟨h1.proper.len, h1.proper.sorted, h1.proper.nonempty, fun _ => ⟨fun p hp => Nat.pos_of_ne_zero (h1.nz p hp), h1.coprime, fun m vs ps e => ?_⟩⟩
    rw [h2] at e
    cases e

end SoundDie
end PythonDice
