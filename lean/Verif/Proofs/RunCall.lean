import Verif.Proofs.RunStmt

/-!
# Running the generated text does what the program does: calls of functions
-/

namespace PythonDice

open Spec Compiler
open Exec (Val Env Scope Lib FDef Caller globalFind localFind libGlobals lift callLib evalE execS execB dictSet dictCopy asObj asDict splitArgs
  returned runBody restOK callF callU)

/-! ## The names of parameters -/

/-- Names of which all but the first of the same name are replaced. -/
def renamed (dum : ℕ → List Char) (pre : List (List Char)) : List (List Char) → List (List Char)
  | [] => []
  | x :: xs => (if x ∈ pre then dum pre.length else x) :: renamed dum (pre ++ [x]) xs

theorem renamed_eq (dum : ℕ → List Char) (all : List (List Char)) (xs pre : List (List Char)) (h : all = pre ++ xs) :
    renamed dum pre xs = xs.mapIdx fun k x => if x ∈ all.take (pre.length + k) then dum (pre.length + k) else x := by
  induction xs generalizing pre with
  | nil => rfl
  | cons x xs ih =>
    rw [renamed, List.mapIdx_cons, ih (pre ++ [x]) (by rw [h]; simp)]
    congr 1
    · rw [h, Nat.add_zero, List.take_left]
    · have e : ∀ k, (pre ++ [x]).length + k = pre.length + (k + 1) := by intro k; simp; omega
      simp only [e]

theorem pyParams_fst (p : List DefPart) :
    (pyParams p).map Prod.fst = renamed (fun k => "dummy".toList ++ (toString k).toList) [] ((paramsOf p).map Prod.fst) := by
  rw [renamed_eq _ ((paramsOf p).map Prod.fst) _ [] rfl, ← params_fst]
  unfold pyParams
  refine List.ext_getElem? fun k => ?_
  simp only [List.getElem?_map, List.getElem?_mapIdx, Option.map_map, List.length_nil, Nat.zero_add, List.map_take]
  rfl

theorem renamed_length (dum : ℕ → List Char) (pre xs : List (List Char)) : (renamed dum pre xs).length = xs.length := by
  induction xs generalizing pre with
  | nil => rfl
  | cons x xs ih => rw [renamed, List.length_cons, List.length_cons, ih]

theorem mem_renamed {dum : ℕ → List Char} {pre xs : List (List Char)} {y : List Char} (h : y ∈ renamed dum pre xs) :
    y ∈ xs ∨ ∃ k, y = dum k := by
  induction xs generalizing pre with
  | nil => cases h
  | cons x xs ih =>
    rw [renamed, List.mem_cons] at h
    rcases h with h | h
    · split at h
      · exact .inr ⟨_, h⟩
      · exact .inl (by rw [h]; exact List.mem_cons_self ..)
    · exact (ih h).imp (List.mem_cons_of_mem _) id

theorem renamed_mem {dum : ℕ → List Char} {pre xs : List (List Char)} {x : List Char} (hp : x ∉ pre) (h : x ∈ xs) :
    x ∈ renamed dum pre xs := by
  induction xs generalizing pre with
  | nil => cases h
  | cons y xs ih =>
    rw [renamed, List.mem_cons]
    by_cases he : x = y
    · subst he
      rw [if_neg hp]
      exact .inl rfl
    · rcases List.mem_cons.1 h with h | h
      · exact absurd h he
      · exact .inr (ih (by simp [hp, he]) h)

theorem renamed_lookup {β : Type} {dum : ℕ → List Char} {pre xs : List (List Char)} {x : List Char} (hd : ∀ k, x ≠ dum k) (hp : x ∉ pre)
    (os : List β) : ((renamed dum pre xs).zip os).lookup x = (xs.zip os).lookup x := by
  induction xs generalizing pre os with
  | nil => rfl
  | cons y xs ih =>
    cases os with
    | nil => simp
    | cons o os =>
      rw [renamed, List.zip_cons_cons, List.zip_cons_cons, List.lookup_cons, List.lookup_cons]
      by_cases he : x = y
      · subst he
        rw [if_neg hp]
        simp
      · have h1 : x ≠ if y ∈ pre then dum pre.length else y := by
          split
          · exact hd _
          · exact he
        rw [beq_false_of_ne h1, beq_false_of_ne he]
        exact ih (by simp [hp, he]) os

theorem lookup_zip_some {β : Type} {xs : List (List Char)} {os : List β} (hl : xs.length = os.length) {x : List Char} (h : x ∈ xs) :
    ∃ o, (xs.zip os).lookup x = some o := by
  induction xs generalizing os with
  | nil => cases h
  | cons y xs ih =>
    cases os with
    | nil => simp at hl
    | cons o os =>
      rw [List.zip_cons_cons, List.lookup_cons]
      by_cases he : x = y
      · subst he
        exact ⟨o, by simp⟩
      · rw [beq_false_of_ne he]
        rcases List.mem_cons.1 h with h | h
        · exact absurd h he
        · exact ih (by simpa using hl) h

theorem lookup_zip_none {β : Type} {xs : List (List Char)} {os : List β} {x : List Char} (h : x ∉ xs) : (xs.zip os).lookup x = none := by
  induction xs generalizing os with
  | nil => rfl
  | cons y xs ih =>
    cases os with
    | nil => rfl
    | cons o os =>
      rw [List.mem_cons, not_or] at h
      rw [List.zip_cons_cons, List.lookup_cons, beq_false_of_ne h.1]
      exact ih h.2

theorem lookup_append' {β : Type} (l m : List (List Char × β)) (x : List Char) :
    (l ++ m).lookup x = match l.lookup x with | some o => some o | none => m.lookup x := by
  induction l with
  | nil => rfl
  | cons a l ih =>
    obtain ⟨y, o⟩ := a
    rw [List.cons_append, List.lookup_cons, List.lookup_cons]
    cases x == y
    · exact ih
    · rfl

theorem lookup_zip_map {β γ : Type} (f : β → γ) (xs : List (List Char)) (os : List β) (x : List Char) :
    (xs.zip (os.map f)).lookup x = ((xs.zip os).lookup x).map f := by
  induction xs generalizing os with
  | nil => rfl
  | cons y xs ih =>
    cases os with
    | nil => rfl
    | cons o os =>
      rw [List.map_cons, List.zip_cons_cons, List.zip_cons_cons, List.lookup_cons, List.lookup_cons]
      cases x == y
      · exact ih os
      · rfl

/-- `dummy` with a number is not a variable. -/
theorem dummy_digit (k : ℕ) : ∃ c ∈ "dummy".toList ++ (toString k).toList, c.isDigit = true := by
  have hne : (toString k).toList ≠ [] := by
    rw [Nat.toString_eq_repr, Nat.repr, String.toList_ofList]
    exact Nat.toDigits_ne_nil
  obtain ⟨c, cs, hc⟩ := List.exists_cons_of_ne_nil hne
  have hm : c ∈ (toString k).toList := by rw [hc]; exact List.mem_cons_self ..
  refine ⟨c, List.mem_append_right _ hm, ?_⟩
  rw [Nat.toString_eq_repr, Nat.repr, String.toList_ofList] at hm
  exact Nat.isDigit_of_mem_toDigits (by decide) (by decide) hm

theorem varName_no_digit {x : List Char} (h : VarName x) : ∀ c ∈ x, c.isDigit = false := by
  intro c hc
  by_contra hd
  rw [Bool.not_eq_false, Char.isDigit, Bool.and_eq_true, decide_eq_true_iff, decide_eq_true_iff] at hd
  rcases h.2 c hc with hu | rfl
  · have h3 : 'A'.toNat ≤ c.toNat := hu.1
    have h4 : c.toNat ≤ '9'.toNat := hd.2
    exact absurd (h3.trans h4) (by decide)
  · have h4 : '_'.toNat ≤ '9'.toNat := hd.2
    exact absurd h4 (by decide)

theorem not_dummy {x : List Char} (h : VarName x) (k : ℕ) : x ≠ "dummy".toList ++ (toString k).toList := by
  rintro rfl
  obtain ⟨c, hc, hd⟩ := dummy_digit k
  rw [varName_no_digit h c hc] at hd
  cases hd

theorem paramsOf_ok {p : List DefPart} (h : ∀ q ∈ p, DefOK q) (hf : p.all freeD = true) : ∀ x ∈ (paramsOf p).map Prod.fst, VarOK x := by
  intro x hx
  unfold paramsOf at hx
  obtain ⟨a, ha, rfl⟩ := List.mem_map.1 hx
  obtain ⟨q, hq, he⟩ := List.mem_filterMap.1 ha
  have h1 := h q hq
  have h2 := List.all_eq_true.1 hf q hq
  cases q with
  | word w => cases he
  | param y =>
    cases he
    exact varOK_of h1 h2
  | typed y t =>
    cases he
    rw [freeD, Bool.and_eq_true] at h2
    exact varOK_of h1.1 h2.1

theorem pyParams_own {p : List DefPart} (h : ∀ q ∈ p, DefOK q) (hf : p.all freeD = true) :
    ∀ x ∈ (pyParams p).map Prod.fst, VarOK x ∨ ∃ c ∈ x, c.isDigit = true := by
  intro x hx
  rw [pyParams_fst] at hx
  rcases mem_renamed hx with hx | ⟨k, rfl⟩
  · exact .inl (paramsOf_ok h hf x hx)
  · exact .inr (dummy_digit k)

/-! ## The names that a function binds -/

mutual

theorem binds_S {st : Style} (s : Stmt) (hf : freeS st false s = true) :
    (∀ x ∈ Exec.bindsS (meanS st s), x ∈ assignsS s) ∧ (st.dict = false → Exec.bindsS (meanS st s) = assignsS s) := by
  match s with
  | .output e => exact ⟨fun x h => h, fun _ => rfl⟩
  | .outputNamed e n => exact ⟨fun x h => h, fun _ => rfl⟩
  | .set n v => exact ⟨fun x h => h, fun _ => rfl⟩
  | .function p body =>
    rw [freeS] at hf
    simp at hf
  | .result e => exact ⟨fun x h => h, fun _ => rfl⟩
  | .cond c b r =>
    rw [freeS, Bool.and_eq_true, Bool.and_eq_true] at hf
    have h1 := binds_B b hf.1.2
    have h2 := binds_E r hf.2
    rw [meanS, assignsS, Exec.bindsS, bindsB_suite]
    refine ⟨fun x hx => ?_, fun hd => by rw [h1.2 hd, h2.2 hd]⟩
    rcases List.mem_append.1 hx with hx | hx
    · exact List.mem_append_left _ (h1.1 x hx)
    · exact List.mem_append_right _ (h2.1 x hx)
  | .loop y e b =>
    rw [freeS, Bool.and_eq_true, Bool.and_eq_true] at hf
    have h1 := binds_B b hf.2
    rw [meanS, assignsS, Exec.bindsS]
    have e : Exec.bindsB (if st.dict then .cons (.setItem "vars".toList y (.name y)) (pySuite (meanB st b)) else pySuite (meanB st b)) =
        Exec.bindsB (meanB st b) := by
      cases st.dict
      · rw [if_neg (by simp), bindsB_suite]
      · rw [if_pos rfl, Exec.bindsB, bindsB_suite]
        rfl
    rw [e]
    refine ⟨fun x hx => ?_, fun hd => by rw [h1.2 hd]⟩
    rcases List.mem_cons.1 hx with hx | hx
    · exact List.mem_cons.2 (.inl hx)
    · exact List.mem_cons_of_mem _ (h1.1 x hx)
  | .assign y e =>
    rw [meanS, assignsS]
    cases hd : st.dict with
    | false =>
      rw [if_neg (by simp)]
      exact ⟨fun x h => h, fun _ => rfl⟩
    | true =>
      rw [if_pos rfl]
      exact ⟨fun x h => (List.not_mem_nil h).elim, fun h => Bool.noConfusion h⟩

theorem binds_B {st : Style} (b : Block) (hf : freeB st false b = true) :
    (∀ x ∈ Exec.bindsB (meanB st b), x ∈ assignsB b) ∧ (st.dict = false → Exec.bindsB (meanB st b) = assignsB b) := by
  match b with
  | .nil => rw [meanB, assignsB]; exact ⟨fun x h => h, fun _ => rfl⟩
  | .cons s b =>
    rw [freeB, Bool.and_eq_true] at hf
    have h1 := binds_S s hf.1
    have h2 := binds_B b hf.2
    rw [meanB, assignsB, Exec.bindsB]
    refine ⟨fun x hx => ?_, fun hd => by rw [h1.2 hd, h2.2 hd]⟩
    rcases List.mem_append.1 hx with hx | hx
    · exact List.mem_append_left _ (h1.1 x hx)
    · exact List.mem_append_right _ (h2.1 x hx)

theorem binds_E {st : Style} (r : Else) (hf : freeE st false r = true) :
    (∀ x ∈ Exec.bindsE (meanElse st r), x ∈ assignsE r) ∧ (st.dict = false → Exec.bindsE (meanElse st r) = assignsE r) := by
  match r with
  | .done => rw [meanElse, assignsE]; exact ⟨fun x h => h, fun _ => rfl⟩
  | .else_ b =>
    rw [freeE] at hf
    rw [meanElse, assignsE, Exec.bindsE, bindsB_suite]
    exact binds_B b hf
  | .elif c b r =>
    rw [freeE, Bool.and_eq_true, Bool.and_eq_true] at hf
    have h1 := binds_B b hf.1.2
    have h2 := binds_E r hf.2
    rw [meanElse, assignsE, Exec.bindsE, bindsB_suite]
    refine ⟨fun x hx => ?_, fun hd => by rw [h1.2 hd, h2.2 hd]⟩
    rcases List.mem_append.1 hx with hx | hx
    · exact List.mem_append_left _ (h1.1 x hx)
    · exact List.mem_append_right _ (h2.1 x hx)

end

mutual

theorem assigns_S {dig : Char → Bool} {lit : Char → Prop} (s : Stmt) (h : StmtOK dig lit s) : ∀ x ∈ assignsS s, VarName x := by
  match s with
  | .output e => intro x hx; cases hx
  | .outputNamed e n => intro x hx; cases hx
  | .set n v => intro x hx; cases hx
  | .function p body => intro x hx; cases hx
  | .result e => intro x hx; cases hx
  | .cond c b r =>
    rw [StmtOK] at h
    intro x hx
    rw [assignsS] at hx
    rcases List.mem_append.1 hx with hx | hx
    · exact assigns_B b h.2.1 x hx
    · exact assigns_E r h.2.2 x hx
  | .loop y e b =>
    rw [StmtOK] at h
    intro x hx
    rw [assignsS] at hx
    rcases List.mem_cons.1 hx with hx | hx
    · rw [hx]; exact h.1
    · exact assigns_B b h.2.2 x hx
  | .assign y e =>
    rw [StmtOK] at h
    intro x hx
    rw [assignsS, List.mem_singleton] at hx
    rw [hx]
    exact h.1

theorem assigns_B {dig : Char → Bool} {lit : Char → Prop} (b : Block) (h : BlockOK dig lit b) : ∀ x ∈ assignsB b, VarName x := by
  match b with
  | .nil => intro x hx; cases hx
  | .cons s b =>
    rw [BlockOK] at h
    intro x hx
    rw [assignsB] at hx
    rcases List.mem_append.1 hx with hx | hx
    · exact assigns_S s h.1 x hx
    · exact assigns_B b h.2 x hx

theorem assigns_E {dig : Char → Bool} {lit : Char → Prop} (r : Else) (h : ElseOK dig lit r) : ∀ x ∈ assignsE r, VarName x := by
  match r with
  | .done => intro x hx; cases hx
  | .else_ b =>
    rw [ElseOK] at h
    intro x hx
    rw [assignsE] at hx
    exact assigns_B b h x hx
  | .elif c b r =>
    rw [ElseOK] at h
    intro x hx
    rw [assignsE] at hx
    rcases List.mem_append.1 hx with hx | hx
    · exact assigns_B b h.2.1 x hx
    · exact assigns_E r h.2.2 x hx

end

/-! ## Entering a function -/

theorem Sim.enter {α β : Type} {R : α → β → Dicts → Prop} {d d1 : Dicts} {m m1 : M α} {m' : M β}
    (he : ∀ w : World, m (w.withDicts d) = m1 (w.withDicts d1)) (hx : EnvExt none d d1) (h : Sim (some d.length) d1 R m1 m') : Sim none d R m m' := by
  intro w
  have h2 := h w
  rw [he]
  unfold Match at h2 ⊢
  rcases hr : (m' w).1 with e | c
  · rw [hr] at h2
    exact h2
  · rw [hr] at h2
    obtain ⟨a, d', h3, h4, h5⟩ := h2
    refine ⟨a, d', h3, ⟨hx.1.trans h4.1, fun j hj _ => ?_⟩, h5⟩
    rw [h4.2 j (lt_of_lt_of_le hj hx.1) (by intro h; cases h; exact lt_irrefl _ hj), hx.2 j hj (by simp)]

section
variable {dig : Char → Bool} {lit : Char → Prop} {st : Style} {top : Bool} {i : ℕ} {call : Caller} {call' : RunCall}

/-- Only the values of variables matter. -/
theorem Rel.congr {σ : Scope} {fns : Fns} {fr fr' : Frame} {d : Dicts} (h : Rel dig lit st top i σ fns fr d) (hd : st.dict = true)
    (ho : fr'.own = none) (hl : ∀ x, VarOK x → fr'.env.lookup x = fr.env.lookup x) : Rel dig lit st top i σ fns fr' d := by
  refine ⟨h.globals, h.top, h.names, fun _ => ⟨ho, (h.dict hd).2.1, ?_⟩, fun h' => by rw [hd] at h'; cases h'⟩
  obtain ⟨D, h1, h2⟩ := (h.dict hd).2.2
  exact ⟨D, h1, fun x hx => by rw [h2 x hx, hl x hx]⟩

/-- Storing parameters. -/
theorem sim_copies {Q : Scope × Option Val → State × Option Obj → Dicts → Prop} {σ : Scope} {fns : Fns} {fr' : Frame} {b : Py.Block}
    {m' : M (State × Option Obj)} {V : List Char → Option Obj} (hd : st.dict = true) (ho : fr'.own = none)
    (hf : ∀ d', Rel dig lit st top i σ fns fr' d' → Sim (some i) d' Q (execB call b σ) m') (l : List (List Char))
    (hl : ∀ q ∈ l, ∃ o, σ.find q = .ok (.obj o) ∧ V q = some o) :
    ∀ (fr : Frame) (d : Dicts), Rel dig lit st top i σ fns fr d →
      (∀ x, VarOK x → fr'.env.lookup x = if x ∈ l then V x else fr.env.lookup x) →
      Sim (some i) d Q (execB call (Py.Block.prepend (pyCopies l) b) σ) m' := by
  induction l with
  | nil =>
    intro fr d h hx
    exact hf d (h.congr hd ho fun x hx' => by rw [hx x hx', if_neg (by simp)])
  | cons q l ih =>
    intro fr d h hx
    obtain ⟨o, ho1, ho2⟩ := hl q (List.mem_cons_self ..)
    have e1 : execB call (Py.Block.prepend (pyCopies (q :: l)) b) σ =
        dictSet i q o >>= fun _ => execB call (Py.Block.prepend (pyCopies l) b) σ := by
      have e0 : Py.Block.prepend (pyCopies (q :: l)) b = .cons (.setItem "vars".toList q (.name q)) (Py.Block.prepend (pyCopies l) b) := rfl
      rw [e0, execB, execS, evalE, lift_bind ho1]
      simp only [asObj, pure_bind]
      rw [lift_bind (h.dict hd).2.1]
      simp only [asDict, bind_assoc, pure_bind]
    rw [e1]
    refine sim_store h hd q o fun d1 h1 => ih (fun q' hq' => hl q' (List.mem_cons_of_mem _ hq')) _ d1 h1 fun x hx' => ?_
    rw [hx x hx']
    unfold Frame.set
    rw [List.lookup_cons]
    by_cases he : x = q
    · subst he
      by_cases hm : x ∈ l
      · rw [if_pos hm, if_pos (List.mem_cons_self ..)]
      · rw [if_neg hm, if_pos (List.mem_cons_self ..), ho2]
        simp
    · rw [beq_false_of_ne he]
      by_cases hm : x ∈ l
      · rw [if_pos hm, if_pos (List.mem_cons_of_mem _ hm)]
      · rw [if_neg hm, if_neg (by simp [he, hm])]

/-- The names of a function. -/
def fnNames (st : Style) (p : List DefPart) (body : Block) : List (List Char) :=
  (fdef st p body).params.map Prod.fst ++ Exec.bindsB (fdef st p body).body

theorem fdef_names (p : List DefPart) (body : Block) :
    (fdef st p body).params.map Prod.fst = (pyParams p).map Prod.fst ++ if st.dict then ["vars".toList] else [] := by
  unfold fdef
  rw [List.map_append, List.map_fst_zip (by rw [List.length_map, List.length_map, pyParams_length, params_length])]
  cases st.dict <;> rfl

theorem bindsB_prepend (l : List (List Char)) (b : Py.Block) : Exec.bindsB (Py.Block.prepend (pyCopies l) b) = Exec.bindsB b := by
  induction l with
  | nil => rfl
  | cons q l ih => exact ih

theorem fdef_binds (p : List DefPart) (body : Block) :
    Exec.bindsB (fdef st p body).body = (if st.dict then ["vars".toList] else []) ++ Exec.bindsB (meanB st body) := by
  unfold fdef pyBody
  cases st.dict with
  | false => exact bindsB_suite _
  | true =>
    dsimp only
    rw [if_pos rfl, if_pos rfl, Exec.bindsB, bindsB_prepend, bindsB_suite]
    rfl

theorem fnNames_own {p : List DefPart} {body : Block} (hg : GoodFn dig lit st p body) : ∀ x ∈ fnNames st p body, OwnName x := by
  intro x hx
  unfold fnNames at hx
  rw [fdef_names, fdef_binds, List.mem_append, List.mem_append, List.mem_append] at hx
  have hv : x ∈ (if st.dict then ["vars".toList] else []) → OwnName x := by
    cases st.dict with
    | false => intro h; cases h
    | true => intro h; exact .inr (.inl (List.mem_singleton.1 h))
  rcases hx with (hx | hx) | (hx | hx)
  · rcases pyParams_own hg.parts hg.free x hx with h | h
    · exact .inl h.1
    · exact .inr (.inr h)
  · exact hv hx
  · exact hv hx
  · exact .inl (assigns_B body hg.bodyOK x ((binds_B body hg.bodyFree).1 x hx))

theorem fnNames_within {p : List DefPart} {body : Block} : Within (some (fnNames st p body)) (Exec.bindsB (meanB st body)) := by
  intro ns hn x hx
  cases hn
  unfold fnNames
  rw [fdef_binds]
  exact List.mem_append_right _ (List.mem_append_right _ hx)

theorem mem_pyParams {p : List DefPart} {x : List Char} (hx : VarName x) :
    x ∈ (pyParams p).map Prod.fst ↔ x ∈ (paramsOf p).map Prod.fst := by
  rw [pyParams_fst]
  constructor
  · intro h
    rcases mem_renamed h with h | ⟨k, h⟩
    · exact h
    · exact absurd h (not_dummy hx k)
  · exact renamed_mem (by simp)

theorem lookup_pyParams {β : Type} {p : List DefPart} {x : List Char} (hx : VarName x) (os : List β) :
    (((pyParams p).map Prod.fst).zip os).lookup x = (((paramsOf p).map Prod.fst).zip os).lookup x := by
  rw [pyParams_fst]
  exact renamed_lookup (not_dummy hx) (by simp) os

theorem returned_map (o : Option Obj) : returned (o.map Val.obj) = pure o := by
  cases o <;> rfl

/-- The body of a function, if variables are variables of Python. -/
theorem sim_body_plain (hc : CallSim dig lit st call call') (hd : st.dict = false) {G : Env} {fns : Fns} {fr : Frame} {p : List DefPart}
    {body : Block} (hG : GRel dig lit st G fns) (hp : ∀ x, VarOK x → globalFind G x = varRes (fr.program.lookup x))
    (hg : GoodFn dig lit st p body) (os : List Obj) (d : Dicts) :
    Sim none d SameRes (runBody call G (fdef st p body) (os.map Val.obj))
      (runB st.rules call' body ⟨fns, enter st.rules fr p body os⟩ >>= fun r => pure r.2) := by
  refine Sim.enter (d1 := d) (fun _ => rfl) (EnvExt.refl _ _) ?_
  have hr : Rel dig lit st false d.length
      ⟨G, some (fnNames st p body, ((pyParams p).map Prod.fst).zip (os.map Val.obj))⟩ fns (enter st.rules fr p body os) d := by
    refine ⟨hG, rfl, fun l hl x hx => ?_, fun h => absurd h (by rw [hd]; simp), fun _ => ?_⟩
    · cases hl
      exact fnNames_own hg x hx
    · have e : enter st.rules fr p body os =
          ⟨some ((paramsOf p).map Prod.fst ++ assignsB body), ((paramsOf p).map Prod.fst).zip os, fr.program⟩ := by
        unfold enter
        rw [if_neg (by show ¬ st.dict = true; rw [hd]; simp)]
      rw [e]
      refine ⟨fun x hx => ?_, fun x hx => ?_, hp⟩
      · unfold fnNames
        rw [fdef_names, fdef_binds, hd, if_neg (by simp), List.append_nil, List.nil_append]
        dsimp only
        rw [List.mem_append, List.mem_append, mem_pyParams hx.1, (binds_B body hg.bodyFree).2 hd]
      · show localFind (((pyParams p).map Prod.fst).zip (os.map Val.obj)) x = _
        unfold localFind
        rw [lookup_zip_map, lookup_pyParams hx.1]
        cases (((paramsOf p).map Prod.fst).zip os).lookup x <;> rfl
  have hb := sim_B hc body hg.bodyOK hg.bodyFree fnNames_within hr rfl
  have e : runBody call G (fdef st p body) (os.map Val.obj) =
      execB call (meanB st body) ⟨G, some (fnNames st p body, ((pyParams p).map Prod.fst).zip (os.map Val.obj))⟩ >>= fun r => returned r.2 := by
    have e1 : (fdef st p body).params.map Prod.fst = (pyParams p).map Prod.fst := by
      rw [fdef_names, hd, if_neg (by simp), List.append_nil]
    have e2 : (fdef st p body).body = pySuite (meanB st body) := by
      unfold fdef pyBody
      rw [hd]
      rfl
    unfold runBody fnNames
    rw [e1, e2, execB_suite]
  rw [e]
  refine hb.bind fun r r' d1 h1 h2 => ?_
  rw [h2.ret, returned_map]
  exact Sim.pure rfl

/-- The body of a function, if variables are entries of a dictionary. -/
theorem sim_body_dict (hc : CallSim dig lit st call call') (hd : st.dict = true) {G : Env} {fns : Fns} {fr : Frame} {p : List DefPart}
    {body : Block} (hG : GRel dig lit st G fns) {d : Dicts} (hr : DictRel i fr d)
    (hg : GoodFn dig lit st p body) {os : List Obj} (hl : os.length = (paramsOf p).length) :
    Sim none d SameRes (runBody call G (fdef st p body) (os.map Val.obj ++ [.dict i]))
      (runB st.rules call' body ⟨fns, enter st.rules fr p body os⟩ >>= fun r => pure r.2) := by
  obtain ⟨D, hD, hD2⟩ := hr
  set qs := (pyParams p).map Prod.fst with hqs
  set xs := (paramsOf p).map Prod.fst with hxs
  have hql : qs.length = os.length := by rw [hqs, List.length_map, pyParams_length, params_length, hl]
  have hvq : "vars".toList ∉ qs := by
    intro h
    rcases pyParams_own hg.parts hg.free _ h with h | ⟨c, hc, h⟩
    · exact vars_not_var h.1
    · have : ∀ c ∈ "vars".toList, c.isDigit = false := by decide +kernel
      rw [this c hc] at h
      cases h
  have hmem : ∀ q ∈ qs, q ∈ fnNames st p body := by
    intro q hq
    unfold fnNames
    rw [fdef_names]
    exact List.mem_append_left _ (List.mem_append_left _ hq)
  have hvm : "vars".toList ∈ fnNames st p body := by
    unfold fnNames
    rw [fdef_names, hd, if_pos rfl]
    exact List.mem_append_left _ (List.mem_append_right _ (List.mem_singleton.2 rfl))
  have hz : (qs ++ ["vars".toList]).zip (os.map Val.obj ++ [.dict i]) = qs.zip (os.map Val.obj) ++ [("vars".toList, .dict i)] :=
    List.zip_append (by rw [hql, List.length_map])
  set env : Env := qs.zip (os.map Val.obj) ++ [("vars".toList, .dict i)] with henv
  set σ0 : Scope := ⟨G, some (fnNames st p body, env)⟩ with hσ0
  set σ1 : Scope := ⟨G, some (fnNames st p body, ("vars".toList, .dict d.length) :: env)⟩ with hσ1
  have hf0 : σ0.find "vars".toList = .ok (.dict i) := by
    unfold Scope.find
    show (if "vars".toList ∈ fnNames st p body then localFind env "vars".toList else globalFind G "vars".toList) = _
    rw [if_pos hvm]
    unfold localFind
    rw [henv, lookup_append', lookup_zip_none hvq]
    rfl
  have hf1 : σ1.find "vars".toList = .ok (.dict d.length) := by
    unfold Scope.find
    show (if "vars".toList ∈ fnNames st p body then localFind (("vars".toList, .dict d.length) :: env) "vars".toList
      else globalFind G "vars".toList) = _
    rw [if_pos hvm]
    unfold localFind
    rw [List.lookup_cons_self]
  have hfq : ∀ q ∈ qs, ∃ o, σ1.find q = .ok (.obj o) ∧ (qs.zip os).lookup q = some o := by
    intro q hq
    obtain ⟨o, ho⟩ := lookup_zip_some hql hq
    refine ⟨o, ?_, ho⟩
    unfold Scope.find
    show (if q ∈ fnNames st p body then localFind (("vars".toList, .dict d.length) :: env) q else globalFind G q) = _
    rw [if_pos (hmem q hq)]
    unfold localFind
    have hne : q ≠ "vars".toList := by rintro rfl; exact hvq hq
    rw [List.lookup_cons, beq_false_of_ne hne, henv, lookup_append', lookup_zip_map, ho]
    rfl
  have hrel : Rel dig lit st false d.length σ1 fns ⟨none, fr.env, []⟩ (d ++ [D]) := by
    refine ⟨hG, rfl, fun l hl x hx => ?_, fun _ => ⟨rfl, hf1, D, by simp, hD2⟩, fun h => by rw [hd] at h; cases h⟩
    cases hl
    exact fnNames_own hg x hx
  have hent : enter st.rules fr p body os = ⟨none, xs.zip os ++ fr.env, []⟩ := by
    unfold enter
    rw [if_pos (show st.rules.copy = true from hd)]
  have e : runBody call G (fdef st p body) (os.map Val.obj ++ [.dict i]) =
      execB call (.cons (.copyDict "vars".toList) (Py.Block.prepend (pyCopies qs) (pySuite (meanB st body)))) σ0 >>= fun r => returned r.2 := by
    have e1 : (fdef st p body).params.map Prod.fst = qs ++ ["vars".toList] := by
      rw [fdef_names, hd, if_pos rfl]
    have e2 : (fdef st p body).body = .cons (.copyDict "vars".toList) (Py.Block.prepend (pyCopies qs) (pySuite (meanB st body))) := by
      unfold fdef pyBody
      rw [hd]
      rfl
    unfold runBody
    rw [hσ0]
    unfold fnNames
    rw [e1, e2, hz]
  rw [e]
  refine Sim.enter (d1 := d ++ [D])
    (m1 := execB call (Py.Block.prepend (pyCopies qs) (pySuite (meanB st body))) σ1 >>= fun r => returned r.2) (fun w => ?_) ?_ ?_
  · have e1 : execB call (.cons (.copyDict "vars".toList) (Py.Block.prepend (pyCopies qs) (pySuite (meanB st body)))) σ0 =
        dictCopy i >>= fun j => execB call (Py.Block.prepend (pyCopies qs) (pySuite (meanB st body))) (σ0.set "vars".toList (.dict j)) := by
      rw [execB, execS, lift_bind hf0]
      simp only [asDict, bind_assoc, pure_bind]
    have e2 : dictCopy i (w.withDicts d) = (.ok d.length, w.withDicts (d ++ [D])) := by
      unfold dictCopy World.withDicts
      dsimp only
      rw [hD]
    rw [e1, bind_assoc]
    show M.bind (dictCopy i) _ (w.withDicts d) = _
    unfold M.bind
    rw [e2]
    rfl
  · refine ⟨by simp, fun j hj _ => ?_⟩
    rw [List.getElem?_append_left hj]
  · have hb : Sim (some d.length) (d ++ [D]) (StRel dig lit st false d.length (some (fnNames st p body)))
        (execB call (Py.Block.prepend (pyCopies qs) (pySuite (meanB st body))) σ1)
        (runB st.rules call' body ⟨fns, enter st.rules fr p body os⟩) := by
      refine sim_copies hd (fr' := enter st.rules fr p body os) (by rw [hent]) (fun d' h' => ?_) qs hfq _ _ hrel fun x hx => ?_
      · rw [execB_suite]
        exact sim_B hc body hg.bodyOK hg.bodyFree fnNames_within h' rfl
      · rw [hent]
        dsimp only
        rw [lookup_append', hqs, lookup_pyParams hx.1, ← hxs]
        by_cases hm : x ∈ xs
        · rw [if_pos ((mem_pyParams hx.1).2 hm)]
          obtain ⟨o, ho⟩ := lookup_zip_some (os := os) (by rw [hxs, List.length_map, hl]) hm
          rw [ho]
        · rw [if_neg fun h => hm ((mem_pyParams hx.1).1 h), lookup_zip_none hm]
    refine hb.bind fun r r' d1 h1 h2 => ?_
    rw [h2.ret, returned_map]
    exact Sim.pure rfl

/-! ## Calls -/

theorem splitArgs_objs (os : List Obj) (d : Bool) (i : ℕ) : splitArgs (os.map Val.obj ++ extra d i) = (os, extra d i) := by
  induction os with
  | nil => cases d <;> rfl
  | cons o os ih => rw [List.map_cons, List.cons_append, splitArgs, ih]

theorem callF_eq {G : Env} {p : List DefPart} {body : Block} {args : List Obj} (hl : args.length = (paramsOf p).length) :
    callF call G (fdef st p body) (args.map Val.obj ++ extra st.dict i) =
      Val.obj <$> fnCall (fun os => runBody call G (fdef st p body) (os.map Val.obj ++ extra st.dict i)) (((paramsOf p).map Prod.snd).zip args) := by
  have ht : (fdef st p body).params.map Prod.snd = (paramsOf p).map Prod.snd ++ if st.dict then [none] else [] := by
    unfold fdef
    rw [List.map_append, List.map_snd_zip (by rw [List.length_map, List.length_map, pyParams_length, params_length])]
    cases st.dict <;> rfl
  have hn : (fdef st p body).params.length = (paramsOf p).length + if st.dict then 1 else 0 := by
    rw [← List.length_map (f := Prod.snd), ht, List.length_append, List.length_map]
    cases st.dict <;> rfl
  unfold callF
  rw [splitArgs_objs, ht, if_pos]
  · congr 2
    have e := List.zip_append (l₁ := (paramsOf p).map Prod.snd) (l₂ := args) (r₁ := if st.dict then [none] else []) (r₂ := [])
      (by rw [List.length_map, hl])
    rw [List.append_nil, List.zip_nil_right, List.append_nil] at e
    exact e
  · dsimp only
    constructor
    · rw [hn, List.length_append, List.length_map, hl]
      unfold extra
      cases st.dict <;> rfl
    · rw [List.drop_append_of_le_length (by rw [List.length_map, hl]), List.drop_of_length_le (by rw [List.length_map, hl])]
      unfold extra
      cases st.dict <;> rfl

/-- Calls do the same, as deep as they may be. -/
theorem callSim (n : ℕ) : CallSim dig lit st (callU n) (runCall st.rules n) := by
  induction n with
  | zero => exact fun G fns fr p body args i d _ _ _ _ _ => Sim.throw .fuel
  | succ n ih =>
    intro G fns fr p body args i d hG hd hp hg hl
    rw [callU, runCall, callF_eq hl]
    refine Sim.map (R := SameRes) Val.obj (Sim.fnCall fun os ho d' hx => ?_) fun a b d' _ h => congrArg Val.obj h
    have hos : os.length = (paramsOf p).length := by
      rw [ho, List.length_zip, List.length_map, hl, min_self]
    cases hdict : st.dict with
    | false =>
      have e : os.map Val.obj ++ extra false i = os.map Val.obj := List.append_nil _
      rw [e]
      exact sim_body_plain ih hdict hG (hp hdict) hg os d'
    | true => exact sim_body_dict ih hdict hG ((hd hdict).2.ext hx (by simp)) hg hos

end

end PythonDice
