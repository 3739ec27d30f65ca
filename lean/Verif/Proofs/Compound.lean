import Verif.Proofs.RollPure

/-! Mixtures of rolls: the compound law. -/

namespace PythonDice
open Spec

theorem live_rvs (dies : List (RV ℤ)) (ws : List ℤ) (h : dies.length = ws.length) :
    RV.live (dies.map RV.Entry.rv) ws = (dies.map RV.Entry.rv).zip ws := by
  rw [RV.live_eq_filter _ _ (by simpa using h), List.filter_eq_self]
  intro x hx
  obtain ⟨d, _, hd⟩ := List.mem_map.1 (List.of_mem_zip hx).1
  rw [← hd]; rfl

theorem forall₂_zip_sum {K : ℤ → (ℤ → ℚ) → ℚ} {vals : List ℤ} {dies : List (RV ℤ)}
    (h : List.Forall₂ (fun v die => die.Proper ∧ ∀ f, Ex die.pairs f = K v f) vals dies) (ps : List ℕ) (f : ℤ → ℚ) :
    (((dies.map RV.Entry.rv).zip (ps.map fun p : ℕ => (p : ℤ))).map
      fun (ew : RV.Entry ℤ × ℤ) => (ew.2 : ℚ) * ew.1.law f).sum = wsum (vals.zip ps) fun v => K v f := by
  induction h generalizing ps with
  | nil => simp
  | cons hd _ ih =>
    cases ps with
    | nil => simp
    | cons p ps =>
      simp only [List.map_cons, List.zip_cons_cons, List.sum_cons, wsum_cons]
      rw [ih ps]
      congr 1
      rw [← hd.2 f]
      simp [RV.Entry.law]

theorem mixRolls0 {st : Settings} {X r : RV ℤ} {dies : List (RV ℤ)} {K : ℤ → (ℤ → ℚ) → ℚ} (hX : X.Proper)
    (h2 : List.Forall₂ (fun v die => die.Proper ∧ ∀ f, Ex die.pairs f = K v f) X.vals dies)
    (h : RV.fromRvs0 st (dies.map RV.Entry.rv) (some (X.probs.map fun p : ℕ => (p : ℤ))) = .ok (some r)) :
    r.Proper ∧ r.Canonical ∧ r.src = none ∧ ∀ f, Ex r.pairs f = Ex X.pairs fun v => K v f := by
  have hl : dies.length = X.probs.length := by rw [← h2.length_eq, hX.len]
  have hg : ∀ e ∈ dies.map RV.Entry.rv, e.Good := by
    intro e he
    obtain ⟨d, hd, rfl⟩ := List.mem_map.1 he
    have : d.Proper := by
      clear h hl hX he
      generalize X.vals = vs at h2
      induction h2 with
      | nil => cases hd
      | cons h _ ih =>
        rcases List.mem_cons.1 hd with rfl | hd
        · exact h.1
        · exact ih hd
    exact ⟨this.len, by have := this.sum_pos; omega⟩
  have hsum : (((dies.map RV.Entry.rv).zip (X.probs.map fun p : ℕ => (p : ℤ))).map
      fun (ew : RV.Entry ℤ × ℤ) => (ew.2 : ℚ)).sum = mass X.pairs := by
    have : ∀ (ds : List (RV ℤ)) (ps : List ℕ), ds.length = ps.length → (((ds.map RV.Entry.rv).zip (ps.map fun p : ℕ => (p : ℤ))).map
      fun (ew : RV.Entry ℤ × ℤ) => (ew.2 : ℚ)).sum = (ps.sum : ℕ) := by
      intro ds
      induction ds with
      | nil => intro ps h; cases ps <;> simp_all
      | cons d ds ih =>
        intro ps h
        cases ps with
        | nil => simp at h
        | cons p ps =>
          simp only [List.map_cons, List.zip_cons_cons, List.sum_cons]
          rw [ih ps (by simpa using h)]
          push_cast; rfl
    rw [this dies X.probs hl, RV.mass_eq_probs hX.len]
  have hlive : RV.live (dies.map RV.Entry.rv)
      ((some (X.probs.map fun p : ℕ => (p : ℤ))).getD (List.replicate (dies.map RV.Entry.rv).length 1)) =
      (dies.map RV.Entry.rv).zip (X.probs.map fun p : ℕ => (p : ℤ)) := live_rvs _ _ (by simpa using hl)
  obtain ⟨hm, law⟩ := RV.fromRvs0_Ex h hg (by rw [hlive, hsum]; exact hX.pos)
  have hc : r.Canonical ∧ r.src = none := by
    obtain ⟨_, _, hr0⟩ := RV.fromRvs0_canonical h
    exact ⟨RV.mk'_canonical hr0, mk'_src hr0⟩
  refine ⟨hc.1.proper hm, hc.1, hc.2, fun f => ?_⟩
  rw [law f, hlive, hsum]
  have ht : (fun v : ℤ => f (RV.truncFn st v)) = f := by
    funext v; rw [truncFn_of st (fun _ _ => rfl)]
  rw [ht, forall₂_zip_sum h2]
  rfl

theorem mixRolls {st : Settings} {X r : RV ℤ} {dies : List (RV ℤ)} {K : ℤ → (ℤ → ℚ) → ℚ} (hX : X.Proper)
    (h2 : List.Forall₂ (fun v die => die.Proper ∧ ∀ f, Ex die.pairs f = K v f) X.vals dies)
    (h : RV.fromRvs st (dies.map RV.Entry.rv) (some (X.probs.map fun p : ℕ => (p : ℤ))) = .ok (some r, false)) :
    r.Proper ∧ r.Canonical ∧ r.src = none ∧ ∀ f, Ex r.pairs f = Ex X.pairs fun v => K v f :=
  mixRolls0 hX h2 (RV.fromRvs0_of h)

end PythonDice
