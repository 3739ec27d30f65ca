import Verif.Model.ExecGlobals
import Verif.Spec.Given
import Verif.Proofs.RunMain
import Verif.Proofs.Sequel

/-!
# Programs with variables that have values at the beginning
-/

namespace PythonDice

open Spec Compiler
open Exec (Val Env Scope globalFind libGlobals execB execS callU runModule runModuleWith unsafeExec unsafeExecWith dictNew)

/-- Variables of a program as variables of Python. -/
def givenEnv (vars : Vars) : Env := vars.map fun p => (p.1, .obj p.2)

section
variable {dig : Char → Bool} {lit : Char → Prop}

theorem gRel_given (st : Style) (g : Env) (hg : ∀ p ∈ g, VarOK p.1) : GRel dig lit st (g ++ libGlobals) (if st.rules.lib then libraryFns else []) := by
  induction g with
  | nil => exact gRel_init st
  | cons p g ih => exact (ih fun q hq => hg q (List.mem_cons_of_mem _ hq)).bind (.inl (hg p (List.mem_cons_self ..))) p.2

theorem plain_given (vars : Vars) (hg : ∀ p ∈ vars, VarOK p.1) : PlainRel ⟨givenEnv vars ++ libGlobals, none⟩ ⟨none, vars, []⟩ := by
  induction vars with
  | nil => exact fun x hx => varOK_not_lib hx
  | cons p vars ih =>
    exact PlainRel.set (σ := ⟨givenEnv vars ++ libGlobals, none⟩) (fr := ⟨none, vars, []⟩) (ih fun q hq => hg q (List.mem_cons_of_mem _ hq))
      (hg p (List.mem_cons_self ..)) p.2

/-- The module does what the program does, with what is given. -/
theorem sim_given (st : Style) (hd : st.dict = false) (vars : Vars) (hg : ∀ p ∈ vars, VarOK p.1) (n : ℕ) (b : Block) (hok : BlockOK dig lit b)
    (hf : freeB st true b = true) (d : Dicts) :
    Sim none d (fun _ _ _ => True) (runModuleWith (givenEnv vars) n (meanP st b))
      (runB st.rules (runCall st.rules n) b ⟨if st.rules.lib then libraryFns else [], ⟨none, vars, []⟩⟩) := by
  have hw : ∀ l, Within none l := fun l ns h => by cases h
  unfold runModuleWith meanP
  rw [hd, if_neg (by simp)]
  refine Sim.enter (d1 := d) (fun _ => rfl) (EnvExt.refl _ _) ?_
  have hr : Rel dig lit st true d.length ⟨givenEnv vars ++ libGlobals, none⟩ (if st.rules.lib then libraryFns else []) ⟨none, vars, []⟩ d :=
    ⟨gRel_given st _ (by
        intro p hp
        obtain ⟨q, hq, rfl⟩ := List.mem_map.1 hp
        exact hg q hq), rfl, fun l h => (by cases h), fun h => absurd h (by rw [hd]; simp), fun _ => plain_given vars hg⟩
  exact Sim.map (fun _ => ()) (sim_B (callSim n) b hok hf (hw _) hr rfl) fun _ _ _ _ _ => trivial

/-- The module does what the program does, without what is given. -/
theorem sim_ignored (st : Style) (hd : st.dict = true) (g : Env) (hg : ∀ p ∈ g, VarOK p.1) (n : ℕ) (b : Block) (hok : BlockOK dig lit b)
    (hf : freeB st true b = true) (d : Dicts) :
    Sim none d (fun _ _ _ => True) (runModuleWith g n (meanP st b))
      (runB st.rules (runCall st.rules n) b ⟨if st.rules.lib then libraryFns else [], ⟨none, [], []⟩⟩) := by
  have hw : ∀ l, Within none l := fun l ns h => by cases h
  unfold runModuleWith meanP
  rw [hd, if_pos rfl]
  refine Sim.enter (d1 := d ++ [[]])
    (m1 := (fun _ => ()) <$> execB (callU n) (meanB st b) (Scope.set ⟨g ++ libGlobals, none⟩ "vars".toList (.dict d.length))) (fun w => ?_) ?_ ?_
  · have e1 : execB (callU n) (.cons (.newDict "vars".toList) (meanB st b)) ⟨g ++ libGlobals, none⟩ =
        dictNew >>= fun i => execB (callU n) (meanB st b) (Scope.set ⟨g ++ libGlobals, none⟩ "vars".toList (.dict i)) := by
      rw [execB, execS]
      simp only [bind_assoc, pure_bind]
    rw [e1, bind_assoc]
    rfl
  · refine ⟨by simp, fun j hj _ => ?_⟩
    rw [List.getElem?_append_left hj]
  · have hr : Rel dig lit st true d.length (Scope.set ⟨g ++ libGlobals, none⟩ "vars".toList (.dict d.length))
        (if st.rules.lib then libraryFns else []) ⟨none, [], []⟩ (d ++ [[]]) := by
      refine ⟨(gRel_given st g hg).set (σ := ⟨g ++ libGlobals, none⟩) (.inr rfl) _, rfl, fun l h => (by cases h),
        fun _ => ⟨rfl, ?_, [], by simp, fun _ _ => rfl⟩, fun h => absurd h (by rw [hd]; simp)⟩
      exact Scope.find_set_self _ fun l h => by cases h
    exact Sim.map (fun _ => ()) (sim_B (callSim n) b hok hf (hw _) hr rfl) fun _ _ _ _ _ => trivial

/-- From what modules do to what is returned. -/
theorem exec_of_sim {g : Env} {n : ℕ} {p : Spec.Py.Block} {m : M (State × Option Obj)} {w : World}
    (h : Sim none w.dicts (fun _ _ _ => True) (runModuleWith g n p) m) :
    ∃ d, unsafeExecWith g n p w =
      ((M.bind m (fun _ => M.get >>= fun w => pure w.outs) { w with outs := [] }).1,
        (M.bind m (fun _ => M.get >>= fun w => pure w.outs) { w with outs := [] }).2.withDicts d) := by
  have h := h { w with outs := [] }
  have e1 : unsafeExecWith g n p w = M.bind (runModuleWith g n p) (fun _ => M.get >>= fun w => pure w.outs) { w with outs := [] } := rfl
  have e3 : World.withDicts { w with outs := [] } w.dicts = { w with outs := [] } := rfl
  rw [e1]
  rw [e3] at h
  unfold M.bind
  unfold Match at h
  rcases hr : m { w with outs := [] } with ⟨r, w'⟩
  rw [hr] at h
  cases r with
  | error e =>
    obtain ⟨d', h⟩ := h
    exact ⟨d', by rw [h]⟩
  | ok a =>
    obtain ⟨_, d', h, _, _⟩ := h
    exact ⟨d', by rw [h]; rfl⟩

end

theorem runGiven_begin (R : Rules) (vars : Vars) (n : ℕ) (b : Block) (w : World) : runGiven R vars n b w =
    match runB R (runCall R n) b ⟨(begin_ R).fns, ⟨none, vars, []⟩⟩ { w with outs := [] } with
    | (.error e, v) => (.error e, v)
    | (.ok _, v) => (.ok v.outs, v) := by
  have e : runGiven R vars n b w = (runB R (runCall R n) b ⟨(begin_ R).fns, ⟨none, vars, []⟩⟩ >>= fun _ =>
      (M.get >>= fun w => pure w.outs : M (List (Obj × Option PyText)))) { w with outs := [] } := rfl
  rw [e, M.bind_apply]
  rcases runB R (runCall R n) b ⟨(begin_ R).fns, ⟨none, vars, []⟩⟩ { w with outs := [] } with ⟨r | r, v⟩ <;> rfl

/-- Only the variables that a program reads matter. -/
theorem runGiven_reads (R : Rules) (n : ℕ) {b : Block} {vars vars' : Vars} (h : ∀ x ∈ readsB b ++ needsB b, vars'.lookup x = vars.lookup x) (w : World) :
    runGiven R vars' n b w = runGiven R vars n b w := by
  have key := near_B (callNear R n) (o := none) (W := fun x => vars'.lookup x = vars.lookup x) (S := fun _ => True)
    (V := fun x => vars'.lookup x = vars.lookup x) b
    (s := ⟨(begin_ R).fns, ⟨none, vars, []⟩⟩) (s' := ⟨(begin_ R).fns, ⟨none, vars', []⟩⟩)
    ⟨⟨fun _ => rfl, rfl, rfl, fun _ h => h, fun x hx => hx, fun x hx => hx⟩, fun q _ => ⟨rfl, fun d body e => (library_not_user R e).elim⟩⟩
    (fun x hx => h x (List.mem_append_left _ hx)) (fun x hx => h x (List.mem_append_right _ hx)) (fun _ _ => trivial) (fun _ e => by cases e)
  obtain ⟨h1, h2, h3⟩ := key { w with outs := [] }
  rw [runGiven_begin, runGiven_begin]
  rcases hr : runB R (runCall R n) b ⟨(begin_ R).fns, ⟨none, vars, []⟩⟩ { w with outs := [] } with ⟨r, v⟩
  rcases hr' : runB R (runCall R n) b ⟨(begin_ R).fns, ⟨none, vars', []⟩⟩ { w with outs := [] } with ⟨r', v'⟩
  rw [hr, hr'] at h1 h2 h3
  dsimp only at h1 h2 h3
  subst h1
  cases r with
  | error e => rw [h2 e rfl]
  | ok a =>
    obtain ⟨a', e, _⟩ := h3 a rfl
    rw [e]

/-- A variable that is given a number at the beginning. -/
theorem runGiven_assign (R : Rules) (vars : Vars) (n : ℕ) (x ds : List Char) (b : Block) :
    runGiven R vars n (.cons (.assign x (.num ds)) b) = runGiven R ((x, .num (decimal ds)) :: vars) n b := by
  unfold runGiven
  rw [runB, runS]
  simp only [runE, bind_assoc, pure_bind]
  rfl

theorem run_preceded (R : Rules) (n : ℕ) (l : List (List Char × List Char)) (b : Block) :
    run R n (preceded l b) = runGiven R (l.map fun p => (p.1, .num (decimal p.2))) n b := by
  induction l generalizing b with
  | nil => rfl
  | cons p l ih => rw [preceded, ih, runGiven_assign]; rfl

end PythonDice
