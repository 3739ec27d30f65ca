import Verif.Proofs.World
import Verif.Spec.Rename

/-!
# A renamed program runs as the program does
-/

namespace PythonDice

open Spec Compiler

namespace Renaming

/-- The variables in sight, renamed. -/
def vars (ρ : Renaming) (v : Vars) : Vars := v.map fun x => (ρ.var x.1, x.2)

/-- A frame, renamed. -/
def frame (ρ : Renaming) (f : Frame) : Frame := ⟨f.own.map (List.map ρ.var), vars ρ f.env, vars ρ f.outer⟩

/-- A function, renamed. -/
def fn (ρ : Renaming) : Spec.Fn → Spec.Fn
  | .user d b => .user (d.map ρ.defPart) (ρ.block b)
  | .lib f => .lib f

/-- The functions, renamed. -/
def fns (ρ : Renaming) (l : Fns) : Fns := l.map fun x => (ρ.sig x.1, fn ρ x.2)

/-- A state, renamed. -/
def state (ρ : Renaming) (s : State) : State := ⟨fns ρ s.fns, frame ρ s.fr⟩

/-- What a statement gives, renamed. -/
def after (ρ : Renaming) (m : M (State × Option Obj)) : M (State × Option Obj) := m >>= fun r => pure (state ρ r.1, r.2)

end Renaming

open Renaming

theorem lookup_map_inj {α β γ δ : Type} [BEq α] [LawfulBEq α] [BEq γ] [LawfulBEq γ] (f : α → γ) (hf : Function.Injective f) (g : β → δ) (l : List (α × β)) (x : α) :
    (l.map fun y => (f y.1, g y.2)).lookup (f x) = (l.lookup x).map g := by
  induction l with
  | nil => rfl
  | cons y l ih =>
    rw [List.map_cons, List.lookup_cons, List.lookup_cons]
    rcases Classical.em (x = y.1) with h | h
    · rw [h, beq_self_eq_true, beq_self_eq_true]
      rfl
    · have h' : f x ≠ f y.1 := fun e => h (hf e)
      rw [beq_false_of_ne h, beq_false_of_ne h']
      exact ih

section
variable {ρ : Renaming} (hρ : ρ.Apart)
include hρ

theorem vars_lookup (v : Vars) (x : List Char) : (vars ρ v).lookup (ρ.var x) = v.lookup x :=
  (lookup_map_inj ρ.var hρ.1 (fun o : Obj => o) v x).trans Option.map_id'

theorem sig_injective : Function.Injective ρ.sig := (List.map_injective_iff.2 (Option.map_injective hρ.2))

theorem frame_find (f : Frame) (x : List Char) : (frame ρ f).find (ρ.var x) = f.find x := by
  unfold Frame.find frame
  cases f.own with
  | none => exact vars_lookup hρ _ _
  | some names =>
    have : ρ.var x ∈ names.map ρ.var ↔ x ∈ names := List.mem_map_of_injective hρ.1
    simp only [Option.map_some, this, vars_lookup hρ]

theorem ren_getVar (R : Rules) (f : Frame) (x : List Char) : getVar R (frame ρ f) (ρ.var x) = getVar R f x := by
  rw [getVar, getVar, frame_find hρ]

theorem ren_textOf (R : Rules) (f : Frame) (ps : List StrPart) : textOf R (frame ρ f) (ps.map ρ.part) = textOf R f ps := by
  induction ps with
  | nil => rfl
  | cons p ps ih =>
    cases p with
    | text s => rw [List.map_cons, Renaming.part, textOf, textOf, ih]
    | var x => rw [List.map_cons, Renaming.part, textOf, textOf, ih, ren_getVar hρ]

theorem ren_getFn (l : Fns) (s : Sig) : getFn (fns ρ l) (ρ.sig s) = (getFn l s >>= fun f => pure (fn ρ f)) := by
  rw [getFn, getFn]
  have : (fns ρ l).lookup (ρ.sig s) = (l.lookup s).map (fn ρ) := lookup_map_inj ρ.sig (sig_injective hρ) (fn ρ) l s
  rw [this]
  cases l.lookup s <;> rfl

omit hρ in
theorem ren_callSig (cs : CallParts) : callSig (ρ.callParts cs) = ρ.sig (callSig cs) := by
  match cs with
  | .nil => rw [Renaming.callParts]; rfl
  | .word w cs => rw [Renaming.callParts, callSig, callSig, ren_callSig cs]; rfl
  | .arg e cs => rw [Renaming.callParts, callSig, callSig, ren_callSig cs]; rfl

omit hρ in
theorem ren_defSig (d : List DefPart) : defSig (d.map ρ.defPart) = ρ.sig (defSig d) := by
  unfold defSig Renaming.sig
  rw [List.map_map, List.map_map]
  refine List.map_congr_left fun p _ => ?_
  cases p <;> rfl

omit hρ in
theorem ren_paramsOf (d : List DefPart) : paramsOf (d.map ρ.defPart) = (paramsOf d).map fun x => (ρ.var x.1, x.2) := by
  induction d with
  | nil => rfl
  | cons p d ih =>
    have hcons : ∀ (q : DefPart) (e : List DefPart), paramsOf (q :: e) = (match paramOf q with | some y => [y] | none => []) ++ paramsOf e := by
      intro q e
      cases q <;> rfl
    rw [List.map_cons, hcons, hcons, ih, List.map_append]
    cases p <;> rfl

omit hρ in
mutual

theorem ren_assignsS (s : Stmt) : assignsS (ρ.stmt s) = (assignsS s).map ρ.var := by
  match s with
  | .output _ | .outputNamed _ _ | .set _ _ | .function _ _ | .result _ => simp [Renaming.stmt, assignsS]
  | .assign _ _ => simp [Renaming.stmt, assignsS]
  | .cond c b r => simp [Renaming.stmt, assignsS, ren_assignsB b, ren_assignsE r]
  | .loop x e b => simp [Renaming.stmt, assignsS, ren_assignsB b]

theorem ren_assignsB (b : Block) : assignsB (ρ.block b) = (assignsB b).map ρ.var := by
  match b with
  | .nil => simp [Renaming.block, assignsB]
  | .cons s b => simp [Renaming.block, assignsB, ren_assignsS s, ren_assignsB b]

theorem ren_assignsE (r : Else) : assignsE (ρ.alt r) = (assignsE r).map ρ.var := by
  match r with
  | .done => simp [Renaming.alt, assignsE]
  | .else_ b => simp [Renaming.alt, assignsE, ren_assignsB b]
  | .elif c b r => simp [Renaming.alt, assignsE, ren_assignsB b, ren_assignsE r]

end

omit hρ in
theorem ren_enter (R : Rules) (fr : Frame) (d : List DefPart) (body : Block) (args : List Obj) :
    enter R (frame ρ fr) (d.map ρ.defPart) (ρ.block body) args = frame ρ (enter R fr d body args) := by
  have hz : ∀ (l : List (List Char × Option Ty)) (args : List Obj),
      ((l.map fun x => (ρ.var x.1, x.2)).map Prod.fst).zip args = vars ρ ((l.map Prod.fst).zip args) := by
    intro l
    induction l with
    | nil => intro args; rfl
    | cons x l ih =>
      intro args
      cases args with
      | nil => rfl
      | cons a args => simp only [List.map_cons, List.zip_cons_cons, ih, vars]
  have hn : ((paramsOf d).map fun x => (ρ.var x.1, x.2)).map Prod.fst = ((paramsOf d).map Prod.fst).map ρ.var := by simp
  unfold enter
  rw [ren_paramsOf, hz]
  split
  · simp [frame, vars]
  · have hp : (frame ρ fr).program = vars ρ fr.program := by
      unfold Frame.program frame
      cases fr.own <;> rfl
    rw [hp, hn, ren_assignsB]
    simp [frame]

/-- Calls of renamed functions. -/
def CallRenamed (ρ : Renaming) (call : RunCall) : Prop := ∀ fr l d body args,
  call (frame ρ fr) (fns ρ l) (d.map ρ.defPart) (ρ.block body) args = call fr l d body args

variable {R : Rules} {call : RunCall} (hc : CallRenamed ρ call)
include hc

omit hρ in
theorem ren_apply (l : Fns) (fr : Frame) (f : Spec.Fn) (args : List Obj) :
    applyFn call (fns ρ l) (frame ρ fr) (fn ρ f) args = applyFn call l fr f args := by
  cases f with
  | lib g => rfl
  | user d body => exact hc _ _ _ _ _

mutual

theorem ren_E (l : Fns) (fr : Frame) (e : Expr) : runE R call (fns ρ l) (frame ρ fr) (ρ.expr e) = runE R call l fr e := by
  match e with
  | .num _ | .dec _ _ | .str _ => simp only [Renaming.expr, runE]
  | .var x => rw [Renaming.expr, runE, runE, ren_getVar hρ]
  | .group e => rw [Renaming.expr, runE, runE, ren_E l fr e]
  | .bin op a b => rw [Renaming.expr, runE, runE, ren_E l fr a, ren_E l fr b]
  | .ndm a b => rw [Renaming.expr, runE, runE, ren_E l fr a, ren_E l fr b]
  | .dm b => rw [Renaming.expr, runE, runE, ren_E l fr b]
  | .unary op b => rw [Renaming.expr, runE, runE, ren_E l fr b]
  | .hash b => rw [Renaming.expr, runE, runE, ren_E l fr b]
  | .seq es => rw [Renaming.expr, runE, runE, ren_L l fr es]
  | .call cs =>
    rw [Renaming.expr, runE, runE, ren_C l fr cs, ren_callSig, ren_getFn hρ]
    simp only [bind_assoc, pure_bind, ren_apply hc]

theorem ren_L (l : Fns) (fr : Frame) (es : Elems) : runElems R call (fns ρ l) (frame ρ fr) (ρ.elems es) = runElems R call l fr es := by
  match es with
  | .nil => simp only [Renaming.elems, runElems]
  | .expr e es => rw [Renaming.elems, runElems, runElems, ren_E l fr e, ren_L l fr es]
  | .range a b es => rw [Renaming.elems, runElems, runElems, ren_E l fr a, ren_E l fr b, ren_L l fr es]

theorem ren_C (l : Fns) (fr : Frame) (cs : CallParts) : runArgs R call (fns ρ l) (frame ρ fr) (ρ.callParts cs) = runArgs R call l fr cs := by
  match cs with
  | .nil => simp only [Renaming.callParts, runArgs]
  | .word w cs => rw [Renaming.callParts, runArgs, runArgs, ren_C l fr cs]
  | .arg e cs => rw [Renaming.callParts, runArgs, runArgs, ren_E l fr e, ren_C l fr cs]

end

theorem ren_set (s : State) (n : List StrPart) (v : Expr) :
    runSet R call (state ρ s) (n.map ρ.part) (ρ.expr v) = runSet R call s n v := by
  have hs : (state ρ s).fr = frame ρ s.fr := rfl
  have hf : (state ρ s).fns = fns ρ s.fns := rfl
  have key := ren_E hρ hc (R := R) s.fns s.fr v
  cases v with
  | str ps => rw [Renaming.expr, runSet, runSet, hs, ren_textOf hρ, ren_textOf hρ]
  | _ =>
    rw [Renaming.expr] at key ⊢
    rw [runSet, runSet, hs, hf, ren_textOf hρ, key]
    all_goals (intro ps h; cases h)

omit hc hρ in
theorem ren_frame_set (f : Frame) (x : List Char) (o : Obj) : frame ρ (f.set x o) = (frame ρ f).set (ρ.var x) o := rfl

omit hρ hc in
theorem ren_loop {f f' : State → ℤ → M (State × Option Obj)} (h : ∀ s n, f (state ρ s) n = after ρ (f' s n)) (ns : List ℤ) (s : State) :
    runLoop f ns (state ρ s) = after ρ (runLoop f' ns s) := by
  induction ns generalizing s with
  | nil => rfl
  | cons n ns ih =>
    rw [runLoop, runLoop, h, after, after, bind_assoc, bind_assoc]
    refine bind_congr fun r => ?_
    rw [pure_bind]
    rcases r with ⟨s', o⟩
    cases o with
    | some v => rfl
    | none => exact ih s'

mutual

theorem ren_S (st : Stmt) (s : State) : runS R call (ρ.stmt st) (state ρ s) = after ρ (runS R call st s) := by
  match st with
  | .output e =>
    rw [Renaming.stmt, runS, runS, after]
    simp only [state, ren_E hρ hc, bind_assoc, pure_bind]
  | .outputNamed e n =>
    rw [Renaming.stmt, runS, runS, after]
    simp only [state, ren_E hρ hc, ren_textOf hρ, bind_assoc, pure_bind]
  | .set n v =>
    rw [Renaming.stmt, runS, runS, after, ren_set hρ hc]
    simp only [bind_assoc, pure_bind]
  | .function d body =>
    rw [Renaming.stmt, runS, runS, after]
    simp only [pure_bind, state, fns, List.map_cons, ren_defSig, fn]
  | .result e =>
    rw [Renaming.stmt, runS, runS, after]
    simp only [state, ren_E hρ hc, bind_assoc, pure_bind]
  | .cond c b r =>
    rw [Renaming.stmt, runS, runS, after]
    have hs : (state ρ s).fr = frame ρ s.fr := rfl
    have hf : (state ρ s).fns = fns ρ s.fns := rfl
    rw [hs, hf, ren_E hρ hc]
    simp only [bind_assoc]
    refine bind_congr fun o => bind_congr fun t => ?_
    cases t with
    | true => exact ren_B b s
    | false => exact ren_alt r s
  | .loop x e b =>
    rw [Renaming.stmt, runS, runS, after]
    have hs : (state ρ s).fr = frame ρ s.fr := rfl
    have hf : (state ρ s).fns = fns ρ s.fns := rfl
    rw [hs, hf, ren_E hρ hc]
    simp only [bind_assoc]
    refine bind_congr fun o => bind_congr fun ns => ?_
    exact ren_loop (fun s n => ren_B b { s with fr := s.fr.set x (.num n) }) ns s
  | .assign x e =>
    rw [Renaming.stmt, runS, runS, after]
    simp only [state, ren_E hρ hc, bind_assoc, pure_bind, ren_frame_set]

theorem ren_B (b : Block) (s : State) : runB R call (ρ.block b) (state ρ s) = after ρ (runB R call b s) := by
  match b with
  | .nil => rw [Renaming.block, runB, runB]; rfl
  | .cons st b =>
    rw [Renaming.block, runB, runB, ren_S st s, after, after, bind_assoc, bind_assoc]
    refine bind_congr fun r => ?_
    rw [pure_bind]
    rcases r with ⟨s', o⟩
    cases o with
    | some v => rfl
    | none => exact ren_B b s'

theorem ren_alt (r : Else) (s : State) : runElse R call (ρ.alt r) (state ρ s) = after ρ (runElse R call r s) := by
  match r with
  | .done => rw [Renaming.alt, runElse, runElse]; rfl
  | .else_ b => rw [Renaming.alt, runElse, runElse]; exact ren_B b s
  | .elif c b r =>
    rw [Renaming.alt, runElse, runElse, after]
    have hs : (state ρ s).fr = frame ρ s.fr := rfl
    have hf : (state ρ s).fns = fns ρ s.fns := rfl
    rw [hs, hf, ren_E hρ hc]
    simp only [bind_assoc]
    refine bind_congr fun o => bind_congr fun t => ?_
    cases t with
    | true => exact ren_B b s
    | false => exact ren_alt r s

end

end

theorem ren_call {ρ : Renaming} (hρ : ρ.Apart) (R : Rules) (n : ℕ) : CallRenamed ρ (runCall R n) := by
  induction n with
  | zero => intro fr l d body args; rfl
  | succ n ih =>
    intro fr l d body args
    change fnCall (fun os => runB R (runCall R n) (ρ.block body) ⟨fns ρ l, enter R (frame ρ fr) (d.map ρ.defPart) (ρ.block body) os⟩ >>= fun r => pure r.2)
        (((paramsOf (d.map ρ.defPart)).map Prod.snd).zip args)
      = fnCall (fun os => runB R (runCall R n) body ⟨l, enter R fr d body os⟩ >>= fun r => pure r.2) (((paramsOf d).map Prod.snd).zip args)
    rw [ren_paramsOf]
    have ht : ((paramsOf d).map fun x => (ρ.var x.1, x.2)).map Prod.snd = (paramsOf d).map Prod.snd := by simp
    rw [ht]
    congr 1
    funext os
    have := ren_B (R := R) hρ ih body ⟨l, enter R fr d body os⟩
    rw [ren_enter]
    change (runB R (runCall R n) (ρ.block body) (state ρ ⟨l, enter R fr d body os⟩) >>= fun r => pure r.2) = _
    rw [this, after, bind_assoc]
    rfl

/-- The library keeps its names. -/
theorem ren_library {ρ : Renaming} (h : ρ.Keeps librarySigs) : fns ρ libraryFns = libraryFns := by
  have hk : ∀ x ∈ libraryFns, (ρ.sig x.1, fn ρ x.2) = x := by
    intro x hx
    have hs : x.1 ∈ librarySigs := by
      have : librarySigs = libraryFns.map Prod.fst := rfl
      rw [this]
      exact List.mem_map_of_mem hx
    have h1 : ρ.sig x.1 = x.1 := by
      unfold Renaming.sig
      conv_rhs => rw [← List.map_id x.1]
      refine List.map_congr_left fun o ho => ?_
      cases o with
      | none => rfl
      | some w => simp [h _ hs w ho]
    have h2 : fn ρ x.2 = x.2 := by
      simp only [libraryFns, List.mem_cons, List.not_mem_nil, or_false] at hx
      rcases hx with rfl | rfl | rfl | rfl | rfl | rfl | rfl | rfl | rfl | rfl | rfl | rfl | rfl <;> rfl
    rw [h1, h2]
  unfold fns
  conv_rhs => rw [← List.map_id libraryFns]
  exact List.map_congr_left hk

theorem ren_run {ρ : Renaming} (hρ : ρ.Apart) (hk : ρ.Keeps librarySigs) (R : Rules) (n : ℕ) (b : Block) :
    run R n (ρ.block b) = run R n b := by
  unfold run
  refine bind_congr fun _ => ?_
  have h0 : (⟨if R.lib then libraryFns else [], ⟨none, [], []⟩⟩ : State) = state ρ ⟨if R.lib then libraryFns else [], ⟨none, [], []⟩⟩ := by
    unfold state
    congr 1
    split
    · exact (ren_library hk).symm
    · rfl
  conv_lhs => rw [h0]
  rw [ren_B hρ (ren_call hρ R n), after, bind_assoc]
  rfl

end PythonDice
