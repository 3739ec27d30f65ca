import Verif.Spec.Kwargs
import Verif.Props.Cast

/-!
# C72: keyword arguments
-/

namespace PythonDice
open Spec

variable {ν : Type} [DecidableEq ν]

/-! ## Independent arguments can be drawn in any order -/

theorem ExN_comm_Ex {α β : Type} (l : List (α × ℕ)) (m : List (β × ℕ)) (n : ℕ) (F : α → List β → ℚ) :
    Ex l (fun x => ExN n m fun ys => F x ys) = ExN n m fun ys => Ex l fun x => F x ys := by
  induction n generalizing F with
  | zero => rfl
  | succ n ih =>
    simp only [ExN]
    rw [Ex_comm]
    congr 1
    funext y
    exact ih fun x ys => F x (y :: ys)

theorem ExN_comm {α β : Type} (l : List (α × ℕ)) (m : List (β × ℕ)) (k n : ℕ) (F : List α → List β → ℚ) :
    ExN k l (fun xs => ExN n m fun ys => F xs ys) = ExN n m fun ys => ExN k l fun xs => F xs ys := by
  induction k generalizing F with
  | zero => rfl
  | succ k ih =>
    simp only [ExN]
    rw [← ExN_comm_Ex]
    congr 1
    funext x
    exact ih fun xs ys => F (x :: xs) ys

/-- One argument: a fixed value, a draw, or draws. -/
inductive ArgKind (a : Option Ty × Obj) : Prop
  | fixed (o : Obj) (h : ∀ g, argLaw a g = g o)
  | draw (l : List (ℤ × ℕ)) (c : ℤ → Obj) (h : ∀ g, argLaw a g = Ex l fun v => g (c v))
  | pool (n : ℕ) (l : List (ℤ × ℕ)) (c : List ℤ → Obj) (h : ∀ g, argLaw a g = ExN n l fun xs => g (c xs))

theorem argKind (a : Option Ty × Obj) : ArgKind a := by
  obtain ⟨ty, o⟩ := a
  rcases ty with _ | ty
  · exact .fixed o fun _ => rfl
  · cases ty <;> cases o <;> first
      | exact .fixed _ fun _ => rfl
      | exact .draw _ _ fun _ => rfl
      | exact .pool _ _ _ fun _ => rfl

theorem argLaw_comm (a b : Option Ty × Obj) (F : Obj → Obj → ℚ) :
    argLaw a (fun x => argLaw b fun y => F x y) = argLaw b fun y => argLaw a fun x => F x y := by
  rcases argKind a with ⟨o, ha⟩ | ⟨l, c, ha⟩ | ⟨n, l, c, ha⟩ <;> rcases argKind b with ⟨o', hb⟩ | ⟨l', c', hb⟩ | ⟨n', l', c', hb⟩ <;>
    simp only [ha, hb]
  · exact Ex_comm _ _ _
  · exact ExN_comm_Ex _ _ _ _
  · exact (ExN_comm_Ex _ _ _ fun y xs => F (c xs) (c' y)).symm
  · exact ExN_comm _ _ _ _ _

theorem argsLaw_append (as bs : List (Option Ty × Obj)) (F : List Obj → ℚ) :
    argsLaw (as ++ bs) F = argsLaw as fun xs => argsLaw bs fun ys => F (xs ++ ys) := by
  induction as generalizing F with
  | nil => rfl
  | cons a as ih =>
    simp only [List.cons_append, argsLaw]
    congr 1
    funext x
    exact ih fun xs => F (x :: xs)

theorem argsLaw_insert (as bs : List (Option Ty × Obj)) (a : Option Ty × Obj) (F : List Obj → List Obj → List Obj → ℚ) :
    argsLaw as (fun xs => argLaw a fun x => argsLaw bs fun ys => F xs [x] ys) =
      argLaw a fun x => argsLaw as fun xs => argsLaw bs fun ys => F xs [x] ys := by
  induction as generalizing F with
  | nil => rfl
  | cons b as ih =>
    simp only [argsLaw]
    rw [argLaw_comm]
    congr 1
    funext y
    exact ih fun xs x ys => F (y :: xs) x ys

/-! ## Filling parameters from keyword arguments -/

/-- The values of the parameters without positional argument. -/
def fillRest (ps : List (Param ν)) (kw : List (ν × Obj)) : Except Err (List Obj) := ps.mapM (paramValue kw)

theorem kw_lookup_mid (k1 k2 : List (ν × Obj)) (k : ν) (v : Obj) (h : k ∉ k1.map (·.1)) : (k1 ++ (k, v) :: k2).lookup k = some v := by
  induction k1 with
  | nil => simp
  | cons x k1 ih =>
    simp only [List.map_cons, List.mem_cons, not_or] at h
    rw [List.cons_append, List.lookup_cons]
    rw [show (k == x.1) = false from by simpa using h.1]
    exact ih h.2

theorem kw_lookup_skip (k1 k2 : List (ν × Obj)) (k k' : ν) (v : Obj) (h : k' ≠ k) :
    (k1 ++ (k, v) :: k2).lookup k' = (k1 ++ k2).lookup k' := by
  induction k1 with
  | nil =>
    rw [List.nil_append, List.nil_append, List.lookup_cons, show (k' == k) = false from by simpa using h]
  | cons x k1 ih =>
    rw [List.cons_append, List.cons_append, List.lookup_cons, List.lookup_cons, ih]

theorem kw_lookup_none (kw : List (ν × Obj)) (k : ν) (h : k ∉ kw.map (·.1)) : kw.lookup k = none := by
  rw [List.lookup_eq_none_iff]
  intro p hp
  have : k ≠ p.1 := fun e => h (List.mem_map.2 ⟨p, hp, e.symm⟩)
  simpa using this

theorem fillRest_skip (ps : List (Param ν)) (k1 k2 : List (ν × Obj)) (k : ν) (v : Obj) (h : k ∉ ps.map (·.name)) :
    fillRest ps (k1 ++ (k, v) :: k2) = fillRest ps (k1 ++ k2) := by
  unfold fillRest
  induction ps with
  | nil => rfl
  | cons p ps ih =>
    simp only [List.map_cons, List.mem_cons, not_or] at h
    have e : paramValue (k1 ++ (k, v) :: k2) p = paramValue (k1 ++ k2) p := by
      unfold paramValue
      rw [kw_lookup_skip _ _ _ _ _ (Ne.symm h.1)]
    rw [List.mapM_cons, List.mapM_cons, e, ih h.2]

theorem kw_zip_names (kw : List (ν × Obj)) (xs : List Obj) (h : xs.length = kw.length) :
    ((kw.map fun x => x.1).zip xs).map (·.1) = kw.map (·.1) := by
  rw [List.map_fst_zip (by simp [h])]

/-- The arguments given by keyword, with annotations. -/
def kwArgs (ps : List (Param ν)) (kw : List (ν × Obj)) : List (Option Ty × Obj) := kw.map fun x => (annOf ps x.1, x.2)

theorem annOf_mem {ps : List (Param ν)} (hnd : (ps.map (·.name)).Nodup) {p : Param ν} (hp : p ∈ ps) : annOf ps p.name = p.ann := by
  unfold annOf
  induction ps with
  | nil => cases hp
  | cons q ps ih =>
    rw [List.map_cons, List.nodup_cons] at hnd
    rw [List.find?_cons]
    by_cases h : q.name = p.name
    · rw [decide_eq_true h]
      rcases List.mem_cons.1 hp with rfl | hp
      · rfl
      · exact absurd (List.mem_map.2 ⟨p, hp, h.symm⟩) hnd.1
    · rw [decide_eq_false h]
      rcases List.mem_cons.1 hp with rfl | hp
      · exact absurd rfl h
      · exact ih hnd.2 hp

theorem filled_skip {k1 k2 : List (ν × Obj)} {k : ν} {v : Obj} {ps : List (Param ν)} {pos : List Obj} {full : List (Option Ty × Obj)}
    (hf : Filled (k1 ++ (k, v) :: k2) ps pos full) (h : k ∉ ps.map (·.name)) : Filled (k1 ++ k2) ps pos full := by
  induction hf with
  | nil => exact .nil
  | positional hn _ ih =>
    simp only [List.map_cons, List.mem_cons, not_or] at h
    refine .positional (fun hc => hn ?_) (ih h.2)
    simp only [List.map_append, List.mem_append, List.map_cons, List.mem_cons] at hc ⊢
    tauto
  | keyword hm _ ih =>
    simp only [List.map_cons, List.mem_cons, not_or] at h
    refine .keyword ?_ (ih h.2)
    simp only [List.mem_append, List.mem_cons] at hm ⊢
    rcases hm with hm | hm | hm
    · exact .inl hm
    · exact absurd (congrArg (·.1) hm).symm h.1
    · exact .inr hm
  | default hn hd _ ih =>
    simp only [List.map_cons, List.mem_cons, not_or] at h
    refine .default (fun hc => hn ?_) hd (ih h.2)
    simp only [List.map_append, List.mem_append, List.map_cons, List.mem_cons] at hc ⊢
    tauto

theorem argsLaw_congr {as : List (Option Ty × Obj)} {F G : List Obj → ℚ} (h : ∀ xs, xs.length = as.length → F xs = G xs) :
    argsLaw as F = argsLaw as G := by
  induction as generalizing F G with
  | nil => exact h [] rfl
  | cons a as ih =>
    simp only [argsLaw]
    congr 1
    funext x
    exact ih fun xs hx => h (x :: xs) (by simp [hx])

/-- `F` of the values, 0 if there are none. -/
def okOr (F : List Obj → ℚ) : Except Err (List Obj) → ℚ
  | .ok vs => F vs
  | .error _ => 0

theorem okOr_cons (F : List Obj → ℚ) (x : Obj) (e : Except Err (List Obj)) :
    okOr F (do let vs ← e; return x :: vs) = okOr (fun vs => F (x :: vs)) e := by
  cases e <;> rfl

theorem fillRest_cons (p : Param ν) (ps : List (Param ν)) (kw : List (ν × Obj)) (v : Obj) (h : paramValue kw p = .ok v) :
    fillRest (p :: ps) kw = do let vs ← fillRest ps kw; return v :: vs := by
  unfold fillRest
  rw [List.mapM_cons, h]
  rfl

theorem kw_zip_mid (k1 k2 : List (ν × Obj)) (x : ν × Obj) (xs ys : List Obj) (y : Obj) (h : xs.length = k1.length) :
    ((k1 ++ x :: k2).map fun z => z.1).zip (xs ++ y :: ys) =
      (k1.map fun z => z.1).zip xs ++ (x.1, y) :: (k2.map fun z => z.1).zip ys := by
  rw [List.map_append, List.zip_append (by simp [h])]
  rfl

theorem kw_zip_app (k1 k2 : List (ν × Obj)) (xs ys : List Obj) (h : xs.length = k1.length) :
    ((k1 ++ k2).map fun z => z.1).zip (xs ++ ys) = (k1.map fun z => z.1).zip xs ++ (k2.map fun z => z.1).zip ys := by
  rw [List.map_append, List.zip_append (by simp [h])]

theorem kw_zip_keys {kw : List (ν × Obj)} {xs : List Obj} {k : ν} (h : k ∈ ((kw.map fun z => z.1).zip xs).map (·.1)) :
    k ∈ kw.map (·.1) := by
  obtain ⟨⟨a, b⟩, hab, rfl⟩ := List.mem_map.1 h
  exact (List.of_mem_zip hab).1

theorem forall₂_split {α β : Type} {R : α → β → Prop} {as bs : List α} {c : List β} (h : List.Forall₂ R (as ++ bs) c) :
    ∃ xs ys, List.Forall₂ R as xs ∧ List.Forall₂ R bs ys ∧ c = xs ++ ys := by
  induction as generalizing c with
  | nil => exact ⟨[], c, .nil, h, rfl⟩
  | cons a as ih =>
    cases h with
    | cons h1 h2 =>
      obtain ⟨xs, ys, h3, h4, rfl⟩ := ih h2
      exact ⟨_ :: xs, ys, .cons h1 h3, h4, rfl⟩

/-- What filling does with rolled values, for the parameters without positional arguments. -/
theorem fill_law {ps all : List (Param ν)} {kw : List (ν × Obj)} {full : List (Option Ty × Obj)} (hf : Filled kw ps [] full)
    (hnd : (ps.map (·.name)).Nodup) (hk : (kw.map (·.1)).Nodup) (hin : ∀ x ∈ kw, x.1 ∈ ps.map (·.name))
    (hann : ∀ p ∈ ps, annOf all p.name = p.ann) :
    (∀ F : List Obj → ℚ, argsLaw (kwArgs all kw) (fun xs => okOr F (fillRest ps ((kw.map fun x => x.1).zip xs))) = argsLaw full F) ∧
    (∀ c, IsCombination (kwArgs all kw) c → ∃ vs, fillRest ps ((kw.map fun x => x.1).zip c) = .ok vs ∧ IsCombination full vs) := by
  induction ps generalizing kw full with
  | nil =>
    cases hf
    have : kw = [] := by
      rcases kw with _ | ⟨x, kw⟩
      · rfl
      · exact absurd (hin x List.mem_cons_self) (by simp)
    subst this
    refine ⟨fun F => rfl, fun c hc => ?_⟩
    cases hc
    exact ⟨[], rfl, .nil⟩
  | cons p ps ih =>
    rw [List.map_cons, List.nodup_cons] at hnd
    cases hf with
    | keyword hm hf =>
      rename_i v full
      obtain ⟨k1, k2, rfl⟩ := List.append_of_mem hm
      have hk' := hk
      rw [List.map_append, List.map_cons] at hk'
      have hk1 : p.name ∉ k1.map (·.1) := by
        intro hc
        exact (List.nodup_append.1 hk').2.2 _ hc _ List.mem_cons_self rfl
      have hk2 : p.name ∉ k2.map (·.1) := (List.nodup_cons.1 (List.nodup_append.1 hk').2.1).1
      have hknd : ((k1 ++ k2).map (·.1)).Nodup := by
        refine List.Nodup.sublist ?_ hk
        exact List.Sublist.map _ (List.Sublist.append_left (List.sublist_cons_self _ _) _)
      have hin' : ∀ x ∈ k1 ++ k2, x.1 ∈ ps.map (·.name) := by
        intro x hx
        have h1 := hin x (by simp only [List.mem_append, List.mem_cons] at hx ⊢; tauto)
        rw [List.map_cons, List.mem_cons] at h1
        rcases h1 with h1 | h1
        · exfalso
          rcases List.mem_append.1 hx with h | h
          · exact hk1 (h1 ▸ List.mem_map.2 ⟨x, h, rfl⟩)
          · exact hk2 (h1 ▸ List.mem_map.2 ⟨x, h, rfl⟩)
        · exact h1
      obtain ⟨ih1, ih2⟩ := ih (filled_skip hf hnd.1) hnd.2 hknd hin' fun q hq => hann q (List.mem_cons_of_mem _ hq)
      have ha : annOf all p.name = p.ann := hann p List.mem_cons_self
      have hargs : kwArgs all (k1 ++ (p.name, v) :: k2) = kwArgs all k1 ++ (p.ann, v) :: kwArgs all k2 := by
        simp [kwArgs, ha]
      have hargs' : kwArgs all (k1 ++ k2) = kwArgs all k1 ++ kwArgs all k2 := by simp [kwArgs]
      have hfill : ∀ (xs ys : List Obj) (y : Obj), xs.length = k1.length →
          fillRest (p :: ps) (((k1 ++ (p.name, v) :: k2).map fun z => z.1).zip (xs ++ y :: ys)) =
            do let vs ← fillRest ps (((k1 ++ k2).map fun z => z.1).zip (xs ++ ys)); return y :: vs := by
        intro xs ys y hx
        rw [kw_zip_mid _ _ _ _ _ _ hx, kw_zip_app _ _ _ _ hx, fillRest_cons _ _ _ y, fillRest_skip _ _ _ _ _ hnd.1]
        unfold paramValue
        rw [kw_lookup_mid _ _ _ _ fun hc => hk1 (kw_zip_keys hc)]
      constructor
      · intro F
        rw [hargs, argsLaw_append]
        simp only [argsLaw]
        have e1 : argsLaw (kwArgs all k1) (fun xs => argLaw (p.ann, v) fun x => argsLaw (kwArgs all k2) fun ys =>
            okOr F (fillRest (p :: ps) (((k1 ++ (p.name, v) :: k2).map fun z => z.1).zip (xs ++ x :: ys)))) =
            argsLaw (kwArgs all k1) fun xs => argLaw (p.ann, v) fun x => argsLaw (kwArgs all k2) fun ys =>
              okOr (fun vs => F (([x] : List Obj) ++ vs)) (fillRest ps (((k1 ++ k2).map fun z => z.1).zip (xs ++ ys))) := by
          refine argsLaw_congr fun xs hx => ?_
          congr 1
          funext x
          congr 1
          funext ys
          rw [hfill _ _ _ (by simpa [kwArgs] using hx), okOr_cons]
          rfl
        rw [e1, argsLaw_insert _ _ _ fun xs x ys => okOr (fun vs => F (x ++ vs)) (fillRest ps (((k1 ++ k2).map fun z => z.1).zip (xs ++ ys)))]
        congr 1
        funext x
        rw [← argsLaw_append _ _ fun zs => okOr (fun vs => F ([x] ++ vs)) (fillRest ps (((k1 ++ k2).map fun z => z.1).zip zs)), ← hargs']
        exact ih1 fun vs => F ([x] ++ vs)
      · intro c hc
        rw [hargs] at hc
        obtain ⟨xs, zs, h1, h2, rfl⟩ := forall₂_split hc
        cases h2 with
        | cons hy h2 =>
        rename_i y ys
        have hlen : xs.length = k1.length := by
          have := h1.length_eq
          simpa [kwArgs] using this.symm
        obtain ⟨vs, h3, h4⟩ := ih2 (xs ++ ys) (by rw [hargs']; exact List.rel_append h1 h2)
        exact ⟨y :: vs, by rw [hfill _ _ _ hlen, h3]; rfl, .cons hy h4⟩
    | default hn hd hf =>
      rename_i d full
      have hin' : ∀ x ∈ kw, x.1 ∈ ps.map (·.name) := by
        intro x hx
        have h1 := hin x hx
        rw [List.map_cons, List.mem_cons] at h1
        rcases h1 with h1 | h1
        · exact absurd (h1 ▸ List.mem_map.2 ⟨x, hx, rfl⟩) hn
        · exact h1
      obtain ⟨ih1, ih2⟩ := ih hf hnd.2 hk hin' fun q hq => hann q (List.mem_cons_of_mem _ hq)
      have hfill : ∀ xs : List Obj, fillRest (p :: ps) ((kw.map fun z => z.1).zip xs) =
          do let vs ← fillRest ps ((kw.map fun z => z.1).zip xs); return d :: vs := by
        intro xs
        refine fillRest_cons _ _ _ d ?_
        unfold paramValue
        rw [kw_lookup_none _ _ fun hc => hn (kw_zip_keys hc), hd]
      constructor
      · intro F
        simp only [hfill, okOr_cons]
        exact ih1 fun vs => F (d :: vs)
      · intro c hc
        obtain ⟨vs, h1, h2⟩ := ih2 c hc
        exact ⟨d :: vs, by rw [hfill, h1]; rfl, .cons ⟨[d], rfl, List.mem_singleton.2 rfl⟩ h2⟩

/-! ## Positional and keyword arguments -/

theorem posArgs_cons (p : Param ν) (ps : List (Param ν)) (v : Obj) (vs : List Obj) :
    ((v :: vs).zipIdx.map fun x => (annAt (p :: ps) x.2, x.1)) = (p.ann, v) :: vs.zipIdx.map fun x => (annAt ps x.2, x.1) := by
  rw [List.zipIdx_cons', List.map_cons, List.map_map]
  congr 1

theorem filled_split {kw : List (ν × Obj)} {ps : List (Param ν)} {pos : List Obj} {full : List (Option Ty × Obj)}
    (hf : Filled kw ps pos full) :
    ∃ rest, full = (pos.zipIdx.map fun x => (annAt ps x.2, x.1)) ++ rest ∧ pos.length ≤ ps.length ∧
      Filled kw (ps.drop pos.length) [] rest ∧ ∀ p ∈ ps.take pos.length, p.name ∉ kw.map (·.1) := by
  induction hf with
  | nil => exact ⟨[], rfl, le_rfl, .nil, by simp⟩
  | positional hn _ ih =>
    obtain ⟨rest, h1, h2, h3, h4⟩ := ih
    refine ⟨rest, ?_, by simpa using h2, h3, ?_⟩
    · rw [posArgs_cons, List.cons_append, ← h1]
    · intro q hq
      rw [List.length_cons, List.take_succ_cons, List.mem_cons] at hq
      rcases hq with rfl | hq
      · exact hn
      · exact h4 q hq
  | keyword hm hf _ => exact ⟨_, rfl, by simp, .keyword hm hf, by simp⟩
  | default hn hd hf _ => exact ⟨_, rfl, by simp, .default hn hd hf, by simp⟩

theorem kw_mem_full {kw : List (ν × Obj)} (hk : (kw.map (·.1)).Nodup) {ps : List (Param ν)} {pos : List Obj} {full : List (Option Ty × Obj)}
    (hf : Filled kw ps pos full) {all : List (Param ν)} (hann : ∀ p ∈ ps, annOf all p.name = p.ann) {x : ν × Obj} (hx : x ∈ kw)
    (hn : x.1 ∈ ps.map (·.name)) : (annOf all x.1, x.2) ∈ full := by
  have hxk : x.1 ∈ kw.map (·.1) := List.mem_map.2 ⟨x, hx, rfl⟩
  induction hf with
  | nil => simp at hn
  | positional h _ ih =>
    rw [List.map_cons, List.mem_cons] at hn
    rcases hn with hn | hn
    · exact absurd (hn ▸ hxk) h
    · exact List.mem_cons_of_mem _ (ih (fun q hq => hann q (List.mem_cons_of_mem _ hq)) hn)
  | keyword hm _ ih =>
    rename_i p ps v full _
    rw [List.map_cons, List.mem_cons] at hn
    rcases hn with hn | hn
    · have : x = (p.name, v) := by
        refine List.inj_on_of_nodup_map hk hx hm ?_
        exact hn
      subst this
      rw [hann p List.mem_cons_self]
      exact List.mem_cons_self
    · exact List.mem_cons_of_mem _ (ih (fun q hq => hann q (List.mem_cons_of_mem _ hq)) hn)
  | default h _ _ ih =>
    rw [List.map_cons, List.mem_cons] at hn
    rcases hn with hn | hn
    · exact absurd (hn ▸ hxk) h
    · exact List.mem_cons_of_mem _ (ih (fun q hq => hann q (List.mem_cons_of_mem _ hq)) hn)

theorem bindArgs_eq {ps : List (Param ν)} {pos xs : List Obj} {kw : List (ν × Obj)} (hl : pos.length ≤ ps.length)
    (hin : ∀ x ∈ kw, x.1 ∈ ps.map (·.name)) (hpos : ∀ p ∈ ps.take pos.length, p.name ∉ kw.map (·.1)) (hx : xs.length = pos.length)
    (ys : List Obj) :
    bindArgs ps xs ((kw.map fun x => x.1).zip ys) =
      do let rest ← fillRest (ps.drop pos.length) ((kw.map fun x => x.1).zip ys); return xs ++ rest := by
  have hkey : ∀ z ∈ (kw.map fun x => x.1).zip ys, z.1 ∈ kw.map (·.1) := fun z hz => kw_zip_keys (List.mem_map.2 ⟨z, hz, rfl⟩)
  unfold bindArgs
  rw [if_neg (by omega), if_neg, if_neg, hx]
  · rfl
  · rw [Bool.not_eq_true, List.any_eq_false]
    intro z hz
    rw [decide_eq_true_iff, hx]
    intro hc
    obtain ⟨p, hp, he⟩ := List.mem_map.1 hc
    exact hpos p hp (he ▸ hkey z hz)
  · rw [Bool.not_eq_true, List.any_eq_false]
    intro z hz
    rw [decide_eq_true_iff, not_not]
    obtain ⟨x, hx, he⟩ := List.mem_map.1 (hkey z hz)
    rw [← he]
    exact hin x hx

/-- C72. A call with positional and keyword arguments and default values has the law of the call with all arguments by position, in the
order of the parameters, default values not converted: the law of the function's result on independent arguments.  `full` lists the
arguments in the order of the parameters; keyword arguments may come in any order. -/
theorem C72_law {I : Settings → Prop} {ps : List (Param ν)} {f : List Obj → M (Option Obj)} {pos : List Obj} {kw : List (ν × Obj)}
    {full : List (Option Ty × Obj)} {K : List Obj → (ℤ → ℚ) → ℚ} (hfull : Filled kw ps pos full) (hnd : (ps.map (·.name)).Nodup)
    (hk : (kw.map (·.1)).Nodup) (hin : ∀ x ∈ kw, x.1 ∈ ps.map (·.name)) (hab : ∀ a ∈ full, castAborts a = false)
    (hargs : ∀ a ∈ full, ArgOk a)
    (hf : ∀ c, IsCombination full c → Triple I (f c) fun v => resLaw v = some (K c) ∧ ResOk v) :
    Triple I (castKw ps f pos kw) fun v => ResOk v ∧ resLaw v = some fun g => argsLaw full fun c => K c g := by
  obtain ⟨rest, hfe, hl, hrest, hpos⟩ := filled_split hfull
  have hann : ∀ p ∈ ps, annOf ps p.name = p.ann := fun p hp => annOf_mem hnd hp
  have hdrop : ∀ p ∈ ps.drop pos.length, p ∈ ps := fun p hp => List.mem_of_mem_drop hp
  have hinr : ∀ x ∈ kw, x.1 ∈ (ps.drop pos.length).map (·.name) := by
    intro x hx
    have h1 := hin x hx
    rw [← List.take_append_drop pos.length ps, List.map_append, List.mem_append] at h1
    rcases h1 with h1 | h1
    · obtain ⟨p, hp, he⟩ := List.mem_map.1 h1
      exact absurd (List.mem_map.2 ⟨x, hx, he.symm⟩) (hpos p hp)
    · exact h1
  have hndr : ((ps.drop pos.length).map (·.name)).Nodup := List.Nodup.sublist (List.Sublist.map _ (List.drop_sublist _ _)) hnd
  obtain ⟨L1, L2⟩ := fill_law (all := ps) hrest hndr hk hinr fun p hp => hann p (hdrop p hp)
  have hsub : ∀ a ∈ combinedArgs ps pos kw, a ∈ full := by
    intro a ha
    rcases List.mem_append.1 ha with h | h
    · rw [hfe]; exact List.mem_append_left _ h
    · obtain ⟨x, hx, rfl⟩ := List.mem_map.1 h
      exact kw_mem_full hk hfull hann hx (hin x hx)
  have hbind : ∀ c, IsCombination (combinedArgs ps pos kw) c → ∃ vs,
      bindArgs ps (c.take pos.length) ((kw.map fun x => x.1).zip (c.drop pos.length)) = .ok vs ∧ IsCombination full vs := by
    intro c hc
    obtain ⟨xs, ys, h1, h2, rfl⟩ := forall₂_split hc
    have hxl : xs.length = pos.length := by simpa using h1.length_eq.symm
    rw [List.take_left' hxl, List.drop_left' hxl, bindArgs_eq hl hin hpos hxl]
    obtain ⟨vs, h3, h4⟩ := L2 ys h2
    refine ⟨xs ++ vs, by rw [h3]; rfl, ?_⟩
    rw [hfe]
    exact List.rel_append h1 h4
  have key := C15_cast_law (I := I)
    (f := fun c => do
      let vs ← M.ofSettings fun _ => bindArgs ps (c.take pos.length) ((kw.map fun x => x.1).zip (c.drop pos.length))
      f vs)
    (K := fun c g => okOr (fun vs => K vs g) (bindArgs ps (c.take pos.length) ((kw.map fun x => x.1).zip (c.drop pos.length))))
    (fun a ha => hab a (hsub a ha)) (fun a ha => hargs a (hsub a ha)) (by
      intro c hc
      obtain ⟨vs, h1, h2⟩ := hbind c hc
      have e : (do
          let vs ← M.ofSettings fun _ => bindArgs ps (c.take pos.length) ((kw.map fun x => x.1).zip (c.drop pos.length))
          f vs) = f vs := by
        rw [h1]; rfl
      rw [e, h1]
      exact hf vs h2)
  refine Triple.mono key fun v hv => ⟨hv.1, ?_⟩
  rw [hv.2]
  congr 1
  funext g
  unfold combinedArgs
  rw [argsLaw_append, hfe, argsLaw_append]
  refine argsLaw_congr fun xs hx => ?_
  have hxl : xs.length = pos.length := by simpa using hx
  rw [← L1 fun ys => K (xs ++ ys) g]
  congr 1
  funext ys
  rw [List.take_left' hxl, List.drop_left' hxl, bindArgs_eq hl hin hpos hxl]
  cases fillRest (ps.drop pos.length) ((kw.map fun x => x.1).zip ys) <;> rfl

/-- C72. With an argument by position for every parameter, and no keywords, this is the call of C15. -/
theorem C72_positional (ps : List (Param ν)) (f : List Obj → M (Option Obj)) (pos : List Obj) (hl : pos.length = ps.length)
    (hargs : ∀ a ∈ (ps.map fun p => p.ann).zip pos, ArgOk a) : castKw ps f pos [] = castCall f ((ps.map fun p => p.ann).zip pos) := by
  have e : combinedArgs ps pos [] = (ps.map fun p => p.ann).zip pos := by
    unfold combinedArgs
    rw [List.map_nil, List.append_nil]
    induction ps generalizing pos with
    | nil =>
      have : pos = [] := List.length_eq_zero_iff.1 hl
      subst this; rfl
    | cons p ps ih =>
      cases pos with
      | nil => simp at hl
      | cons v vs =>
        rw [posArgs_cons, ih vs (by simpa using hl) (fun a ha => hargs a (by simp [ha]))]
        rfl
  unfold castKw
  rw [e, castCall_eq, castCall_eq]
  have hlen : ∀ c ∈ combos (((ps.map fun p => p.ann).zip pos).map slotOf), c.1.length = pos.length := by
    intro c hc
    have h := (mem_combos hargs hc).length_eq
    rw [← h, List.length_zip, List.length_map]
    omega
  have hb : ∀ c : List Obj, c.length = pos.length →
      (do
        let vs ← M.ofSettings fun _ => bindArgs ps (c.take pos.length) ((([] : List (ν × Obj)).map fun x => x.1).zip (c.drop pos.length))
        f vs) = f c := by
    intro c hc
    have : bindArgs ps (c.take pos.length) ((([] : List (ν × Obj)).map fun x => x.1).zip (c.drop pos.length)) = .ok c := by
      rw [bindArgs_eq (pos := pos) (kw := []) (by omega) (by simp) (by simp) (by rw [List.length_take]; omega)]
      rw [hl, List.drop_length, ← hl, List.take_of_length_le (by omega)]
      change Except.ok (c ++ []) = _
      rw [List.append_nil]
    rw [this]
    rfl
  split
  · rfl
  · split
    · congr 1
      generalize combos (((ps.map fun p => p.ann).zip pos).map slotOf) = C at hlen
      induction C with
      | nil => rfl
      | cons c C ih =>
        unfold M.forList
        rw [ih fun c' hc' => hlen c' (List.mem_cons_of_mem _ hc')]
        have := hb c.1 (hlen c List.mem_cons_self)
        unfold castStep
        beta_reduce
        rw [this]
    · rename_i hh
      obtain ⟨a, ha⟩ := combos_easy (Bool.eq_false_iff.2 hh)
      rw [ha]
      exact hb a (hlen (a, 1) (by rw [ha]; exact List.mem_cons_self))

/-! ## Calls that Python rejects -/

theorem bindArgs_good {ps : List (Param ν)} {pos xs ys vs : List Obj} {kw : List (ν × Obj)} (hx : xs.length = pos.length)
    (hy : ys.length = kw.length) (h : bindArgs ps xs ((kw.map fun x => x.1).zip ys) = .ok vs) :
    (∀ x ∈ kw, x.1 ∈ ps.map (·.name)) ∧ ∃ full, Filled kw ps pos full := by
  have hkeys : ∀ k, k ∈ kw.map (·.1) ↔ ∃ y, (k, y) ∈ (kw.map fun x => x.1).zip ys := by
    intro k
    constructor
    · intro h
      rw [← kw_zip_names kw ys hy] at h
      obtain ⟨⟨a, b⟩, h1, h2⟩ := List.mem_map.1 h
      exact ⟨b, h2 ▸ h1⟩
    · rintro ⟨y, hy'⟩
      exact (List.of_mem_zip hy').1
  unfold bindArgs at h
  split at h
  · cases h
  rename_i h1
  split at h
  · cases h
  rename_i h2
  split at h
  · cases h
  rename_i h3
  rw [Bool.not_eq_true, List.any_eq_false] at h2 h3
  refine ⟨?_, ?_⟩
  · intro x hx'
    obtain ⟨y, hy'⟩ := (hkeys x.1).1 (List.mem_map.2 ⟨x, hx', rfl⟩)
    have := h2 _ hy'
    rw [decide_eq_true_iff, not_not] at this
    exact this
  · rw [hx] at h1 h3 h
    have hrest : ∃ rest, Filled kw (ps.drop pos.length) [] rest := by
      cases hm : (ps.drop pos.length).mapM (paramValue ((kw.map fun x => x.1).zip ys)) with
      | error e => rw [hm] at h; cases h
      | ok rest =>
        clear h h2 h3 h1
        generalize ps.drop pos.length = qs at hm
        induction qs generalizing rest with
        | nil => exact ⟨[], .nil⟩
        | cons q qs ih =>
          rw [List.mapM_cons] at hm
          cases hv : paramValue ((kw.map fun x => x.1).zip ys) q with
          | error e => rw [hv] at hm; cases hm
          | ok v =>
            rw [hv] at hm
            cases hm' : qs.mapM (paramValue ((kw.map fun x => x.1).zip ys)) with
            | error e =>
              rw [hm'] at hm
              cases hm
            | ok rest' =>
              obtain ⟨r, hr⟩ := ih rest' hm'
              unfold paramValue at hv
              by_cases hk : q.name ∈ kw.map (·.1)
              · obtain ⟨⟨a, b⟩, hab, he⟩ := List.mem_map.1 hk
                change a = q.name at he
                subst he
                exact ⟨_, .keyword hab hr⟩
              · have hnone : ((kw.map fun x => x.1).zip ys).lookup q.name = none :=
                  kw_lookup_none _ _ fun hc => hk (kw_zip_keys hc)
                rw [hnone] at hv
                cases hd : q.default with
                | none => rw [hd] at hv; cases hv
                | some d => exact ⟨_, .default hk hd hr⟩
    obtain ⟨rest, hrest⟩ := hrest
    have hno : ∀ p ∈ ps.take pos.length, p.name ∉ kw.map (·.1) := by
      intro p hp hc
      obtain ⟨y, hy'⟩ := (hkeys p.name).1 hc
      have := h3 _ hy'
      rw [decide_eq_true_iff] at this
      exact this (List.mem_map.2 ⟨p, hp, rfl⟩)
    clear h2 h3 h hx
    induction pos generalizing ps with
    | nil => exact ⟨rest, hrest⟩
    | cons v pos ih =>
      cases ps with
      | nil => simp at h1
      | cons p ps =>
        rw [List.length_cons, List.take_succ_cons] at hno
        rw [List.length_cons, List.drop_succ_cons] at hrest
        obtain ⟨full, hfull⟩ := ih (by simpa using h1) hrest fun q hq => hno q (List.mem_cons_of_mem _ hq)
        exact ⟨_, .positional (hno p List.mem_cons_self) hfull⟩

theorem bindArgs_error {ps : List (Param ν)} {xs : List Obj} {kw : List (ν × Obj)} {e : Err} (h : bindArgs ps xs kw = .error e) :
    e = .type := by
  unfold bindArgs at h
  split at h
  · cases h; rfl
  · split at h
    · cases h; rfl
    · split at h
      · cases h; rfl
      · cases hm : (ps.drop xs.length).mapM (paramValue kw) with
        | ok rest => rw [hm] at h; cases h
        | error e' =>
          rw [hm] at h
          cases h
          clear * - hm
          generalize ps.drop xs.length = qs at hm
          induction qs with
          | nil => cases hm
          | cons q qs ih =>
            rw [List.mapM_cons] at hm
            cases hv : paramValue kw q with
            | error e2 =>
              rw [hv] at hm
              cases hm
              unfold paramValue at hv
              split at hv <;> cases hv
              rfl
            | ok v =>
              rw [hv] at hm
              cases hm' : qs.mapM (paramValue kw) with
              | ok _ => rw [hm'] at hm; cases hm
              | error e2 =>
                rw [hm'] at hm
                cases hm
                exact ih hm'

/-- C72. A call that gives too many positional arguments, an unknown keyword, an argument twice or too few arguments raises TypeError
without calling the function.  Missing: a call that also gives a blank die for a number or a sequence (see the counterexample). -/
theorem C72_bad_call_partial (ps : List (Param ν)) (f : List Obj → M (Option Obj)) (pos : List Obj) (kw : List (ν × Obj))
    (hbad : (∃ x ∈ kw, x.1 ∉ ps.map (·.name)) ∨ ¬ ∃ full, Filled kw ps pos full)
    (hab : ∀ a ∈ combinedArgs ps pos kw, castAborts a = false) (hargs : ∀ a ∈ combinedArgs ps pos kw, ArgOk a) (w : World) :
    castKw ps f pos kw w = (.error .type, w) := by
  have hb : ∀ c, IsCombination (combinedArgs ps pos kw) c →
      bindArgs ps (c.take pos.length) ((kw.map fun x => x.1).zip (c.drop pos.length)) = .error .type := by
    intro c hc
    have hlen : c.length = pos.length + kw.length := by
      have := hc.length_eq
      rw [← this]
      simp [combinedArgs]
    cases h : bindArgs ps (c.take pos.length) ((kw.map fun x => x.1).zip (c.drop pos.length)) with
    | error e => rw [bindArgs_error h]
    | ok vs =>
      obtain ⟨h1, h2⟩ := bindArgs_good (pos := pos) (by rw [List.length_take]; omega) (by rw [List.length_drop]; omega) h
      rcases hbad with ⟨x, hx, hn⟩ | hn
      · exact absurd (h1 x hx) hn
      · exact absurd h2 hn
  unfold castKw
  rw [castCall_eq, if_neg (by simpa using hab)]
  split
  · have hne : combos ((combinedArgs ps pos kw).map slotOf) ≠ [] := by
      intro h
      have := args_mass hargs
      rw [h] at this
      exact this rfl
    have hcomb : ∀ c ∈ combos ((combinedArgs ps pos kw).map slotOf), IsCombination (combinedArgs ps pos kw) c.1 := fun c hc =>
      mem_combos hargs hc
    generalize combos ((combinedArgs ps pos kw).map slotOf) = C at hne hcomb
    cases C with
    | nil => exact absurd rfl hne
    | cons c C =>
      have := hb c.1 (hcomb c List.mem_cons_self)
      change M.bind (M.bind (castStep _ c) _) _ w = _
      unfold castStep
      change M.bind (M.bind (M.bind (M.bind (M.ofSettings fun _ => bindArgs ps (c.1.take pos.length) ((kw.map fun x => x.1).zip
        (c.1.drop pos.length))) _) _) _) _ w = _
      rw [this]
      rfl
  · rename_i hh
    obtain ⟨a, ha⟩ := combos_easy (Bool.eq_false_iff.2 hh)
    have := hb a (mem_combos hargs (c := (a, 1)) (by rw [ha]; exact List.mem_cons_self))
    rw [ha]
    change M.bind (M.ofSettings fun _ => bindArgs ps (a.take pos.length) ((kw.map fun x => x.1).zip (a.drop pos.length))) _ w = _
    rw [this]
    rfl

/-- C72. A blank die for a number or a sequence hides a bad call: `f(Blank, zzz=1)` is a special blank, not a TypeError. -/
theorem C72_bad_call_counterexample (f : List Obj → M (Option Obj)) (w : World) :
    castKw [⟨0, some .N, none⟩] f [.blank false] [(7, .num 1)] w = (.ok (some (.blank true)), w) ∧
      (7 : ℕ) ∉ ([⟨0, some .N, none⟩] : List (Param ℕ)).map (·.name) :=
  ⟨C16_blank_arg _ _ .N (by decide) false (by decide) w, by decide⟩

/-! ## Examples -/

/-- `def f(A: T_N, B: T_S, C: T_S = 3): return A*100 + len(B)*10 + (C if C is a number, else -1)` -/
def kwDemo (c : List Obj) : M (Option Obj) :=
  match c with
  | [.num a, .seq b, .num c] => pure (some (.num (a * 100 + b.length * 10 + c)))
  | [.num a, .seq b, .seq _] => pure (some (.num (a * 100 + b.length * 10 - 1)))
  | _ => pure none

/-- Its parameters. -/
def kwParams : List (Param ℕ) := [⟨0, some .N, none⟩, ⟨1, some .S, none⟩, ⟨2, some .S, some (.num 3)⟩]

/-- The default value 3 stays a number although `T_S` is asked for. -/
example : castKw kwParams kwDemo [] [(1, .seq [4, 5]), (0, .rv ⟨[1, 2], [1, 3], none⟩)] {} =
    (.ok (some (.rv ⟨[123, 223], [1, 3], none⟩)), {}) := by decide +kernel

/-- Given, it becomes a sequence. -/
example : castKw kwParams kwDemo [.rv ⟨[1, 2], [1, 3], none⟩] [(2, .num 3), (1, .seq [4, 5])] {} =
    (.ok (some (.rv ⟨[119, 219], [1, 3], none⟩)), {}) := by decide +kernel

/-- The hypotheses of `C72_law` for the first of these calls. -/
example : Filled [(1, .seq [4, 5]), (0, .rv ⟨[1, 2], [1, 3], none⟩)] kwParams []
    [(some .N, .rv ⟨[1, 2], [1, 3], none⟩), (some .S, .seq [4, 5]), (none, .num 3)] :=
  .keyword (by decide) (.keyword (by decide) (.default (by decide) rfl .nil))

example : (castKw kwParams kwDemo [.num 1, .num 2, .num 3, .num 4] [] {}).1 = .error .type := by decide +kernel
example : (castKw kwParams kwDemo [.num 1, .num 2] [(1, .num 3)] {}).1 = .error .type := by decide +kernel
example : (castKw kwParams kwDemo [.num 1, .num 2] [(5, .num 3)] {}).1 = .error .type := by decide +kernel
example : (castKw kwParams kwDemo [.num 1] [] {}).1 = .error .type := by decide +kernel

/-- Such calls meet the hypothesis of `C72_bad_call_partial`. -/
example : ¬ ∃ full, Filled [] kwParams [.num 1] full := by
  rintro ⟨full, h⟩
  cases h with
  | positional _ h =>
    cases h with
    | keyword h _ => cases h
    | default _ h _ => cases h

end PythonDice
