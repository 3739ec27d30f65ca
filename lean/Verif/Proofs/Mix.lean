import Verif.Proofs.Conv

/-! Lemmas on `from_rvs`. -/

set_option linter.unusedSectionVars false

namespace PythonDice
namespace RV
open Spec

variable {α : Type}

/-- Expectation of a non-blank entry. -/
def Entry.law : Entry α → (α → ℚ) → ℚ
  | .num v => fun f => f v
  | .rv r => Ex r.pairs
  | .blank => fun _ => 0

@[simp] theorem isBlank_num (v : α) : (Entry.num v).isBlank = false := rfl
@[simp] theorem isBlank_rv (r : RV α) : (Entry.rv r).isBlank = false := rfl
@[simp] theorem isBlank_blank : (Entry.blank : Entry α).isBlank = true := rfl

/-- Well-formed entry of positive total weight. -/
def Entry.Good : Entry α → Prop
  | .rv r => r.vals.length = r.probs.length ∧ r.probs.sum ≠ 0
  | _ => True

/-- Integer-weighted sum. -/
def zsum (l : List (α × ℤ)) (f : α → ℚ) : ℚ := (l.map fun vp => (vp.2 : ℚ) * f vp.1).sum

@[simp] theorem zsum_nil (f : α → ℚ) : zsum [] f = 0 := rfl
@[simp] theorem zsum_cons (x : α × ℤ) (l : List (α × ℤ)) (f : α → ℚ) :
    zsum (x :: l) f = (x.2 : ℚ) * f x.1 + zsum l f := by simp [zsum]
@[simp] theorem zsum_append (l m : List (α × ℤ)) (f : α → ℚ) :
    zsum (l ++ m) f = zsum l f + zsum m f := by simp [zsum]

/-- Non-negative integer weights as natural weights. -/
def natPairs (l : List (α × ℤ)) : List (α × ℕ) := l.map fun x => (x.1, x.2.toNat)

theorem natPairs_wsum {l : List (α × ℤ)} (h : ∀ x ∈ l, 0 ≤ x.2) (f : α → ℚ) :
    wsum (natPairs l) f = zsum l f := by
  simp only [wsum, zsum, natPairs, List.map_map]
  congr 1
  apply List.map_congr_left
  intro x hx
  simp only [Function.comp]
  congr 1
  have : ((x.2.toNat : ℤ) : ℚ) = (x.2 : ℚ) := by rw [Int.toNat_of_nonneg (h x hx)]
  exact_mod_cast this

theorem contrib_zsum [LinearOrder α] {prod : ℕ} {w : ℤ} {e : Entry α} {l : List (α × ℤ)} (hg : e.Good)
    (hb : e.isBlank = false) (hd : e.probSum ∣ prod) (h : e.contrib prod w = .ok l) (f : α → ℚ) :
    zsum l f = (w : ℚ) * prod * e.law f := by
  cases e with
  | blank => simp [Entry.isBlank] at hb
  | num v => cases h; simp [Entry.law]
  | rv r =>
    simp only [Entry.contrib] at h
    split at h
    · cases h
    · cases h
      obtain ⟨hl, hs⟩ := hg
      obtain ⟨k, hk⟩ := hd
      simp only [Entry.probSum, sumProbs] at hk
      have hdiv : prod / r.sumProbs = k := by
        rw [hk, sumProbs, Nat.mul_div_cancel_left _ (Nat.pos_of_ne_zero hs)]
      rw [hdiv]
      have h1 : zsum (r.vals.zip (r.probs.map fun p : ℕ => (p : ℤ) * w * (k : ℤ))) f = (w : ℚ) * k * wsum r.pairs f := by
        rw [List.zip_map_right]
        simp only [zsum, wsum, pairs, List.map_map, ← List.sum_map_mul_left]
        congr 1
        apply List.map_congr_left
        intro x _
        simp only [Function.comp, Prod.map, id]
        push_cast; ring
      have h2 : mass r.pairs = (r.probs.sum : ℕ) := by rw [mass_eq_sum, pairs_map_snd r hl]
      rw [h1, Entry.law, Ex, h2, hk]
      have : ((r.probs.sum : ℕ) : ℚ) ≠ 0 := by exact_mod_cast hs
      push_cast
      field_simp

theorem zsum_flatten (ls : List (List (α × ℤ))) (f : α → ℚ) :
    zsum ls.flatten f = (ls.map fun l => zsum l f).sum := by
  induction ls with
  | nil => rfl
  | cons l ls ih => simp [ih]

theorem parts_zsum [LinearOrder α] {prod : ℕ} {ews : List (Entry α × ℤ)} {parts : List (List (α × ℤ))}
    (hg : ∀ x ∈ ews, x.1.Good ∧ x.1.isBlank = false ∧ x.1.probSum ∣ prod)
    (h : ews.mapM (fun (ew : Entry α × ℤ) => ew.1.contrib prod ew.2) = .ok parts) (f : α → ℚ) :
    zsum parts.flatten f = (prod : ℚ) * (ews.map fun (ew : Entry α × ℤ) => (ew.2 : ℚ) * ew.1.law f).sum := by
  rw [mapM_ok_iff] at h
  rw [zsum_flatten]
  induction h with
  | nil => simp
  | cons h1 _ ih =>
    rename_i ew l ews ls _
    obtain ⟨g1, g2, g3⟩ := hg ew List.mem_cons_self
    simp only [List.map_cons, List.sum_cons]
    rw [ih fun x hx => hg x (List.mem_cons_of_mem _ hx), contrib_zsum g1 g2 g3 h1]
    ring

variable [LinearOrder α] [PyVal α]

theorem mk'_Ex_zsum {st : Settings} {l : List (α × ℤ)} {r : RV α}
    (h : mk' st (l.map (·.1)) (l.map (·.2)) = .ok r) (hm : zsum l (fun _ => 1) ≠ 0) :
    mass r.pairs ≠ 0 ∧
    ∀ f, Ex r.pairs f = zsum l (fun v => f (truncFn st v)) / zsum l fun _ => 1 := by
  have hnn : ∀ x ∈ l, 0 ≤ x.2 := fun x hx => (mk'_ok h).2.1 _ (List.mem_map_of_mem (f := (·.2)) hx)
  have e1 : l.map (·.1) = (natPairs l).map (·.1) := by simp [natPairs, Function.comp_def]
  have e2 : l.map (·.2) = (natPairs l).map fun x => (x.2 : ℤ) := by
    simp only [natPairs, List.map_map]
    apply List.map_congr_left
    intro x hx
    simp [hnn x hx]
  rw [e1, e2] at h
  have hm' : mass (natPairs l) ≠ 0 := by rw [mass, natPairs_wsum hnn]; exact hm
  refine ⟨mk'_mass_nat h hm', fun f => ?_⟩
  rw [mk'_Ex_nat h hm', Ex, mass, natPairs_wsum hnn, natPairs_wsum hnn]

/-- The entries that count, with their weights. -/
def live (rvs : List (Entry α)) (ws : List ℤ) : List (Entry α × ℤ) :=
  (rvs.filter fun e => !e.isBlank).zip (filterWeights rvs ws)

theorem live_eq_filter (rvs : List (Entry α)) (ws : List ℤ) (h : rvs.length = ws.length) :
    live rvs ws = (rvs.zip ws).filter fun ew => !ew.1.isBlank := by
  induction rvs generalizing ws with
  | nil => cases ws <;> simp [live] at *
  | cons e rvs ih =>
    cases ws with
    | nil => simp at h
    | cons w ws =>
      simp only [List.length_cons, Nat.add_right_cancel_iff] at h
      have := ih ws h
      cases hb : e.isBlank <;> simp_all [live, filterWeights]

theorem fromRvs_eq (st : Settings) (rvs : List (Entry α)) (weights : Option (List ℤ)) :
    fromRvs st rvs weights =
      let ws := weights.getD (List.replicate rvs.length 1)
      let rs := rvs.filter fun e => !e.isBlank
      if rs = [] then .ok (none, false)
      else if rs.length ≠ (filterWeights rvs ws).length then .error .assertion
      else ((live rvs ws).mapM fun (ew : Entry α × ℤ) => ew.1.contrib (rs.map Entry.probSum).prod ew.2).bind fun parts =>
        (mk' st (parts.flatten.map (·.1)) (parts.flatten.map (·.2))).bind fun r =>
          (probLimit r).bind fun rb => .ok (some rb.1, rb.2) := by
  cases weights <;> simp only [fromRvs, List.length_eq_zero_iff] <;> rfl

/-- The mixture before its weights are limited. -/
def fromRvs0 (st : Settings) (rvs : List (Entry α)) (weights : Option (List ℤ)) : Except Err (Option (RV α)) :=
  let ws := weights.getD (List.replicate rvs.length 1)
  let rs := rvs.filter fun e => !e.isBlank
  if rs = [] then .ok none
  else if rs.length ≠ (filterWeights rvs ws).length then .error .assertion
  else ((live rvs ws).mapM fun (ew : Entry α × ℤ) => ew.1.contrib (rs.map Entry.probSum).prod ew.2).bind fun parts =>
    (mk' st (parts.flatten.map (·.1)) (parts.flatten.map (·.2))).bind fun r => .ok (some r)

/-- Limiting the weights, if there is a die. -/
def limitO : Option (RV α) → Except Err (Option (RV α) × Bool)
  | none => .ok (none, false)
  | some r => (probLimit r).bind fun rb => .ok (some rb.1, rb.2)

theorem except_assoc {ε α β γ : Type} (m : Except ε α) (f : α → Except ε β) (g : β → Except ε γ) :
    (m.bind f).bind g = m.bind fun x => (f x).bind g := by cases m <;> rfl

theorem fromRvs_limit (st : Settings) (rvs : List (Entry α)) (weights : Option (List ℤ)) :
    fromRvs st rvs weights = (fromRvs0 st rvs weights).bind limitO := by
  rw [fromRvs_eq, fromRvs0]
  simp only
  split
  · rfl
  · split
    · rfl
    · rw [except_assoc]
      congr 1
      funext parts
      rw [except_assoc]
      rfl

theorem fromRvs0_of {st : Settings} {rvs : List (Entry α)} {weights : Option (List ℤ)} {x : Option (RV α)}
    (h : fromRvs st rvs weights = .ok (x, false)) : fromRvs0 st rvs weights = .ok x := by
  rw [fromRvs_limit, bind_ok_iff] at h
  obtain ⟨y, hy, h⟩ := h
  rw [hy]
  cases y with
  | none => cases h; rfl
  | some r =>
    simp only [limitO, bind_ok_iff] at h
    obtain ⟨⟨r1, b⟩, hrb, h⟩ := h
    cases h
    rw [probLimit_false hrb]

/-- Law of a mixture. -/
theorem fromRvs0_Ex {st : Settings} {rvs : List (Entry α)} {weights : Option (List ℤ)} {r : RV α}
    (h : fromRvs0 st rvs weights = .ok (some r))
    (hg : ∀ e ∈ rvs, e.Good)
    (hw : ((live rvs (weights.getD (List.replicate rvs.length 1))).map fun (ew : Entry α × ℤ) => (ew.2 : ℚ)).sum ≠ 0) :
    mass r.pairs ≠ 0 ∧ ∀ f, Ex r.pairs f =
      ((live rvs (weights.getD (List.replicate rvs.length 1))).map
        fun (ew : Entry α × ℤ) => (ew.2 : ℚ) * ew.1.law fun v => f (truncFn st v)).sum /
      ((live rvs (weights.getD (List.replicate rvs.length 1))).map fun (ew : Entry α × ℤ) => (ew.2 : ℚ)).sum := by
  unfold fromRvs0 at h
  simp only at h
  split at h
  · cases h
  split at h
  · cases h
  rename_i hne hlen
  simp only [bind_ok_iff] at h
  obtain ⟨parts, hp, r0, hr0, h⟩ := h
  cases h
  set ws := weights.getD (List.replicate rvs.length 1) with hws
  set rs := rvs.filter fun e => !e.isBlank with hrs
  set P := (rs.map Entry.probSum).prod with hP
  have hall : ∀ x ∈ live rvs ws, x.1.Good ∧ x.1.isBlank = false ∧ x.1.probSum ∣ P := by
    intro x hx
    have hmem : x.1 ∈ rs := (List.of_mem_zip hx).1
    have h1 := List.mem_filter.1 hmem
    exact ⟨hg _ h1.1, by simpa using h1.2, List.dvd_prod (List.mem_map_of_mem (f := Entry.probSum) hmem)⟩
  have hPne : P ≠ 0 := by
    rw [hP]
    intro h0
    rw [List.prod_eq_zero_iff] at h0
    obtain ⟨e, he, h0⟩ := List.mem_map.1 h0
    have h1 := List.mem_filter.1 he
    have h2 := hg e h1.1
    cases e with
    | num v => simp [Entry.probSum] at h0
    | blank => simp [Entry.isBlank] at h1
    | rv r => exact h2.2 h0
  have hz := parts_zsum hall hp
  have hlaw1 : ((live rvs ws).map fun (ew : Entry α × ℤ) => (ew.2 : ℚ) * ew.1.law fun _ => 1).sum =
      ((live rvs ws).map fun (ew : Entry α × ℤ) => (ew.2 : ℚ)).sum := by
    congr 1
    apply List.map_congr_left
    intro x hx
    obtain ⟨g1, g2, _⟩ := hall x hx
    have : x.1.law (fun _ => 1) = 1 := by
      cases hx1 : x.1 with
      | num v => rfl
      | blank => rw [hx1] at g2; simp [Entry.isBlank] at g2
      | rv r =>
        rw [hx1] at g1
        apply Ex_const
        rw [mass_eq_sum, pairs_map_snd r g1.1]
        exact_mod_cast g1.2
    rw [this, mul_one]
  have hPq : (P : ℚ) ≠ 0 := by exact_mod_cast hPne
  have hm : zsum parts.flatten (fun _ => 1) ≠ 0 := by
    rw [hz, hlaw1]; exact mul_ne_zero hPq hw
  obtain ⟨hm', hE⟩ := mk'_Ex_zsum hr0 hm
  refine ⟨hm', fun f => ?_⟩
  rw [hE, hz, hz, hlaw1, mul_div_mul_left _ _ hPq]

theorem fromRvs_Ex {st : Settings} {rvs : List (Entry α)} {weights : Option (List ℤ)} {r : RV α}
    (h : fromRvs st rvs weights = .ok (some r, false))
    (hg : ∀ e ∈ rvs, e.Good)
    (hw : ((live rvs (weights.getD (List.replicate rvs.length 1))).map fun (ew : Entry α × ℤ) => (ew.2 : ℚ)).sum ≠ 0) :
    mass r.pairs ≠ 0 ∧ ∀ f, Ex r.pairs f =
      ((live rvs (weights.getD (List.replicate rvs.length 1))).map
        fun (ew : Entry α × ℤ) => (ew.2 : ℚ) * ew.1.law fun v => f (truncFn st v)).sum /
      ((live rvs (weights.getD (List.replicate rvs.length 1))).map fun (ew : Entry α × ℤ) => (ew.2 : ℚ)).sum :=
  fromRvs0_Ex (fromRvs0_of h) hg hw

theorem fromRvs0_blank (st : Settings) (rvs : List (Entry α)) (weights : Option (List ℤ)) :
    fromRvs0 st rvs weights = .ok none ↔ ∀ e ∈ rvs, e = .blank := by
  have hf : (rvs.filter fun e => !e.isBlank) = [] ↔ ∀ e ∈ rvs, e = .blank := by
    rw [List.filter_eq_nil_iff]
    refine forall₂_congr fun e _ => ?_
    cases e <;> simp [Entry.isBlank]
  unfold fromRvs0
  simp only
  constructor
  · intro h
    rw [← hf]
    by_contra hne
    rw [if_neg hne] at h
    split at h
    · cases h
    simp only [bind_ok_iff] at h
    obtain ⟨_, _, _, _, h⟩ := h
    cases h
  · intro h
    rw [if_pos (hf.2 h)]

theorem fromRvs0_canonical {st : Settings} {rvs : List (Entry α)} {weights : Option (List ℤ)} {r : RV α}
    (h : fromRvs0 st rvs weights = .ok (some r)) : ∃ vs ps, mk' st vs ps = .ok r := by
  unfold fromRvs0 at h
  simp only at h
  split at h
  · cases h
  split at h
  · cases h
  simp only [bind_ok_iff] at h
  obtain ⟨parts, _, r0, hr0, h⟩ := h
  cases h
  exact ⟨_, _, hr0⟩

end RV
end PythonDice
