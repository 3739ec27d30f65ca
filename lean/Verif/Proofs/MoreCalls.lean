import Verif.Proofs.World
import Verif.Spec.RunDepth

/-!
# A program that ends with so many nested calls ends in the same way with more
-/

namespace PythonDice

open Spec Compiler

/-- The second computation is the first, wherever the first does not run out of calls. -/
def ExtendsM {α : Type} (m m' : M α) : Prop := ∀ w : World, (m w).1 ≠ .error .fuel → m' w = m w

namespace ExtendsM
variable {α β : Type}

theorem refl (m : M α) : ExtendsM m m := fun _ _ => rfl

theorem throw (m : M α) : ExtendsM (M.throw .fuel) m := fun _ h => absurd rfl h

theorem bind {m m' : M α} {f f' : α → M β} (hm : ExtendsM m m') (hf : ∀ a, ExtendsM (f a) (f' a)) : ExtendsM (m >>= f) (m' >>= f') := by
  intro w h
  rw [M.bind_apply] at h ⊢
  rw [M.bind_apply]
  have h1 := hm w
  rcases hr : m w with ⟨r, w'⟩
  rw [hr] at h1 h
  cases r with
  | error e =>
    rw [h1 (fun he => h (by cases he; rfl))]
  | ok a =>
    rw [h1 (fun he => by cases he)]
    exact hf a w' h

theorem forList {f f' : α → M β} (h : ∀ x, ExtendsM (f x) (f' x)) (l : List α) : ExtendsM (M.forList f l) (M.forList f' l) := by
  induction l with
  | nil => exact refl _
  | cons x xs ih => exact (h x).bind fun y => ih.bind fun ys => refl _

theorem castCall {f f' : List Obj → M (Option Obj)} (h : ∀ os, ExtendsM (f os) (f' os)) (args : List (Option Ty × Obj)) :
    ExtendsM (PythonDice.castCall f args) (PythonDice.castCall f' args) := by
  unfold PythonDice.castCall
  by_cases ha : args.any castAborts = true
  · rw [if_pos ha, if_pos ha]
    exact refl _
  · rw [if_neg ha, if_neg ha]
    refine (refl _).bind fun slots => ?_
    by_cases hh : slots.any Slot.isHard = true
    · rw [if_pos hh, if_pos hh]
      exact (forList (fun c : List Obj × ℕ => (h c.1).bind fun v => refl _) _).bind fun res => refl _
    · rw [if_neg hh, if_neg hh]
      exact h _

theorem depthCall {m m' : M (Option Obj)} (h : ExtendsM m m') : ExtendsM (PythonDice.depthCall m) (PythonDice.depthCall m') := by
  unfold PythonDice.depthCall
  refine (refl _).bind fun st => ?_
  split
  · exact refl _
  · exact (refl _).bind fun _ => h.bind fun _ => refl _

theorem fnCall {f f' : List Obj → M (Option Obj)} (h : ∀ os, ExtendsM (f os) (f' os)) (args : List (Option Ty × Obj)) :
    ExtendsM (PythonDice.fnCall f args) (PythonDice.fnCall f' args) := depthCall (castCall h args)

end ExtendsM

/-- The same of calls. -/
def CallExtends (call call' : RunCall) : Prop := ∀ fr fns d body args, ExtendsM (call fr fns d body args) (call' fr fns d body args)

section
variable {R : Rules} {call call' : RunCall}

theorem extends_apply (hc : CallExtends call call') (fns : Fns) (fr : Frame) (f : Spec.Fn) (args : List Obj) :
    ExtendsM (applyFn call fns fr f args) (applyFn call' fns fr f args) := by
  cases f with
  | lib g => exact ExtendsM.refl _
  | user d body => exact hc _ _ _ _ _

mutual

theorem extends_E (hc : CallExtends call call') (fns : Fns) (fr : Frame) (e : Expr) : ExtendsM (runE R call fns fr e) (runE R call' fns fr e) := by
  match e with
  | .num _ | .dec _ _ | .var _ | .str _ => exact ExtendsM.refl _
  | .group e =>
    rw [runE, runE]
    exact extends_E hc fns fr e
  | .bin op l r =>
    rw [runE, runE]
    exact (extends_E hc fns fr l).bind fun a => (extends_E hc fns fr r).bind fun b => ExtendsM.refl _
  | .ndm l r =>
    rw [runE, runE]
    exact (extends_E hc fns fr l).bind fun a => (extends_E hc fns fr r).bind fun b => ExtendsM.refl _
  | .dm r =>
    rw [runE, runE]
    exact (extends_E hc fns fr r).bind fun b => ExtendsM.refl _
  | .unary op e =>
    rw [runE, runE]
    exact (extends_E hc fns fr e).bind fun b => ExtendsM.refl _
  | .hash e =>
    rw [runE, runE]
    exact (extends_E hc fns fr e).bind fun b => ExtendsM.refl _
  | .seq es =>
    rw [runE, runE]
    exact (extends_L hc fns fr es).bind fun b => ExtendsM.refl _
  | .call cs =>
    rw [runE, runE]
    exact (ExtendsM.refl _).bind fun f => (extends_C hc fns fr cs).bind fun args => extends_apply hc fns fr f args

theorem extends_L (hc : CallExtends call call') (fns : Fns) (fr : Frame) (es : Elems) :
    ExtendsM (runElems R call fns fr es) (runElems R call' fns fr es) := by
  match es with
  | .nil => exact ExtendsM.refl _
  | .expr e es =>
    rw [runElems, runElems]
    exact (extends_E hc fns fr e).bind fun a => (extends_L hc fns fr es).bind fun b => ExtendsM.refl _
  | .range l r es =>
    rw [runElems, runElems]
    exact (extends_E hc fns fr l).bind fun a => (extends_E hc fns fr r).bind fun b => (ExtendsM.refl _).bind fun s =>
      (extends_L hc fns fr es).bind fun b => ExtendsM.refl _

theorem extends_C (hc : CallExtends call call') (fns : Fns) (fr : Frame) (cs : CallParts) :
    ExtendsM (runArgs R call fns fr cs) (runArgs R call' fns fr cs) := by
  match cs with
  | .nil => exact ExtendsM.refl _
  | .word w cs =>
    rw [runArgs, runArgs]
    exact extends_C hc fns fr cs
  | .arg e cs =>
    rw [runArgs, runArgs]
    exact (extends_E hc fns fr e).bind fun a => (extends_C hc fns fr cs).bind fun b => ExtendsM.refl _

end

theorem extends_loop {f f' : State → ℤ → M (State × Option Obj)} (h : ∀ s n, ExtendsM (f s n) (f' s n)) (ns : List ℤ) (s : State) :
    ExtendsM (runLoop f ns s) (runLoop f' ns s) := by
  induction ns generalizing s with
  | nil => exact ExtendsM.refl _
  | cons n ns ih =>
    rw [runLoop, runLoop]
    refine (h s n).bind fun r => ?_
    obtain ⟨s1, o⟩ := r
    cases o with
    | some v => exact ExtendsM.refl _
    | none => exact ih s1

theorem extends_set (hc : CallExtends call call') (s : State) (n : List StrPart) (v : Expr) :
    ExtendsM (runSet R call s n v) (runSet R call' s n v) := by
  cases v with
  | str ps => exact ExtendsM.refl _
  | _ => exact (ExtendsM.refl _).bind fun n => (extends_E hc s.fns s.fr _).bind fun o => ExtendsM.refl _

mutual

theorem extends_S (hc : CallExtends call call') (st : Stmt) (s : State) : ExtendsM (runS R call st s) (runS R call' st s) := by
  match st with
  | .output e =>
    rw [runS, runS]
    exact (extends_E hc _ _ e).bind fun o => ExtendsM.refl _
  | .outputNamed e n =>
    rw [runS, runS]
    exact (extends_E hc _ _ e).bind fun o => ExtendsM.refl _
  | .set n v =>
    rw [runS, runS]
    exact (extends_set hc s n v).bind fun _ => ExtendsM.refl _
  | .function d body => exact ExtendsM.refl _
  | .result e =>
    rw [runS, runS]
    exact (extends_E hc _ _ e).bind fun o => ExtendsM.refl _
  | .cond x b r =>
    rw [runS, runS]
    refine (extends_E hc _ _ x).bind fun o => (ExtendsM.refl _).bind fun t => ?_
    cases t with
    | true => exact extends_B hc b s
    | false => exact extends_Else hc r s
  | .loop x e b =>
    rw [runS, runS]
    exact (extends_E hc _ _ e).bind fun o => (ExtendsM.refl _).bind fun ns =>
      extends_loop (fun s' n => extends_B hc b { s' with fr := s'.fr.set x (.num n) }) ns s
  | .assign x e =>
    rw [runS, runS]
    exact (extends_E hc _ _ e).bind fun o => ExtendsM.refl _

theorem extends_B (hc : CallExtends call call') (b : Block) (s : State) : ExtendsM (runB R call b s) (runB R call' b s) := by
  match b with
  | .nil => exact ExtendsM.refl _
  | .cons st b =>
    rw [runB, runB]
    refine (extends_S hc st s).bind fun r => ?_
    obtain ⟨s1, o⟩ := r
    cases o with
    | some v => exact ExtendsM.refl _
    | none => exact extends_B hc b s1

theorem extends_Else (hc : CallExtends call call') (r : Else) (s : State) : ExtendsM (runElse R call r s) (runElse R call' r s) := by
  match r with
  | .done => exact ExtendsM.refl _
  | .else_ b =>
    rw [runElse, runElse]
    exact extends_B hc b s
  | .elif x b r =>
    rw [runElse, runElse]
    refine (extends_E hc _ _ x).bind fun o => (ExtendsM.refl _).bind fun t => ?_
    cases t with
    | true => exact extends_B hc b s
    | false => exact extends_Else hc r s

end

theorem runCall_extends (R : Rules) {n m : ℕ} (h : n ≤ m) : CallExtends (runCall R n) (runCall R m) := by
  induction n generalizing m with
  | zero => exact fun _ _ _ _ _ => ExtendsM.throw _
  | succ n ih =>
    obtain ⟨m, rfl⟩ : ∃ k, m = k + 1 := ⟨m - 1, by omega⟩
    intro fr fns d body args
    rw [runCall, runCall]
    exact ExtendsM.fnCall (fun os => (extends_B (ih (by omega)) body _).bind fun r => ExtendsM.refl _) _

/-- A program with more calls. -/
theorem run_extends (R : Rules) {n m : ℕ} (h : n ≤ m) (b : Block) : ExtendsM (run R n b) (run R m b) :=
  (ExtendsM.refl _).bind fun _ => (extends_B (runCall_extends R h) b _).bind fun _ => ExtendsM.refl _

end

end PythonDice
