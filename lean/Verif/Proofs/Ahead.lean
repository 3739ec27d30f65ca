import Verif.Model.Exec
import Verif.Spec.Run
import Verif.Proofs.Tidy

/-!
# Nothing looks at what was output before
-/

namespace PythonDice

/-- Outputs with their names. -/
abbrev Outs := List (Obj × Option PyText)

/-- The state with outputs before the others. -/
def World.ahead (w : World) (d : Outs) : World := { w with outs := d ++ w.outs }

/-- A computation that neither reads nor changes the outputs before, but may add others. -/
def Onward {α : Type} (m : M α) : Prop := ∀ (w : World) (d : Outs), m (w.ahead d) = ((m w).1, (m w).2.ahead d)

namespace Onward
variable {α β : Type}

theorem pure (x : α) : Onward (Pure.pure x : M α) := fun _ _ => rfl

theorem throw (e : Err) : Onward (M.throw e : M α) := fun _ _ => rfl

theorem settings : Onward M.settings := fun _ _ => rfl

theorem ofSettings (f : Settings → Except Err α) : Onward (M.ofSettings f) := fun _ _ => rfl

theorem ofLimited (f : Settings → Except Err (α × Bool)) : Onward (M.ofLimited f) := by
  intro w d
  unfold M.ofLimited
  have e : (w.ahead d).settings = w.settings := rfl
  rw [e]
  rcases f w.settings with e | ⟨x, b⟩
  · rfl
  · cases b <;> rfl

theorem modify {f : World → World} (h : ∀ w d, f (World.ahead w d) = (f w).ahead d) : Onward (M.modify f) :=
  fun w d => by
    show (Except.ok (), f (w.ahead d)) = (Except.ok (), (f w).ahead d)
    rw [h]

theorem bind {m : M α} {f : α → M β} (hm : Onward m) (hf : ∀ x, Onward (f x)) : Onward (m >>= f) := by
  intro w d
  show M.bind m f _ = ((M.bind m f w).1, (M.bind m f w).2.ahead d)
  have h := hm w d
  unfold M.bind
  rw [h]
  rcases m w with ⟨r, w'⟩
  cases r with
  | error e => rfl
  | ok x => exact hf x w' d

theorem map {m : M α} (f : α → β) (hm : Onward m) : Onward (f <$> m) := by
  have e : f <$> m = m >>= fun x => Pure.pure (f x) := rfl
  rw [e]
  exact hm.bind fun x => pure _

theorem forList {f : α → M β} (hf : ∀ x, Onward (f x)) (l : List α) : Onward (M.forList f l) := by
  induction l with
  | nil => exact pure []
  | cons x xs ih => exact (hf x).bind fun y => ih.bind fun ys => pure _

theorem castSlot (ty : Option Ty) (o : Obj) : Onward (PythonDice.castSlot ty o) := by
  unfold PythonDice.castSlot
  split <;> first
    | exact pure _
    | exact (ofSettings _).bind fun _ => pure _

theorem castCall {f : List Obj → M (Option Obj)} (hf : ∀ l, Onward (f l)) (args : List (Option Ty × Obj)) :
    Onward (PythonDice.castCall f args) := by
  unfold PythonDice.castCall
  split
  · exact pure _
  · refine (forList (fun a => castSlot a.1 a.2) args).bind fun slots => ?_
    split
    · exact (forList (fun c : List Obj × ℕ => (hf c.1).bind fun v => pure _) _).bind fun res => (ofLimited _).bind fun r => pure _
    · exact hf _

theorem orBlank {m : M (Option Obj)} (hm : Onward m) : Onward (PythonDice.orBlank m) := hm.bind fun _ => pure _

theorem negObj (o : Obj) : Onward (PythonDice.negObj o) := by
  cases o <;> first | exact pure _ | exact map _ (ofSettings _)

theorem blankL (op : BinOp) (s : Bool) (o : Obj) : Onward (PythonDice.blankL op s o) := by
  unfold PythonDice.blankL
  split
  · split
    · exact pure _
    · exact negObj o
  · exact pure _

theorem numBinop (op : BinOp) (x : ℤ) (o : Obj) : Onward (PythonDice.numBinop op x o) := by
  unfold PythonDice.numBinop
  split
  · exact map _ (ofSettings _)
  · split
    · exact pure _
    · exact map _ (ofSettings _)
  · split <;> exact map _ (ofSettings _)
  · exact pure _

theorem binop (op : BinOp) (a b : Obj) : Onward (PythonDice.binop op a b) := by
  unfold PythonDice.binop
  split
  · exact numBinop _ _ _
  · split
    · exact pure _
    · exact map _ (ofSettings _)
  · split
    · exact pure _
    · exact map _ (ofSettings _)
  · exact numBinop _ _ _
  · exact map _ (ofSettings _)
  · exact map _ (ofSettings _)
  · exact map _ (ofLimited _)
  · exact pure _
  · exact blankL _ _ _

theorem negOp (o : Obj) : Onward (PythonDice.negOp o) := by
  cases o <;> first | exact pure _ | exact throw _ | exact map _ (ofSettings _)

theorem posOp (o : Obj) : Onward (PythonDice.posOp o) := by
  cases o <;> first | exact pure _ | exact throw _

theorem myInvert (o : Obj) : Onward (PythonDice.myInvert o) := by
  cases o <;> first | exact pure _ | exact map _ (ofSettings _)

theorem invertOp (o : Obj) : Onward (PythonDice.invertOp o) := by
  cases o <;> first | exact pure _ | exact map _ (ofSettings _)

theorem lenOp (o : Obj) : Onward (PythonDice.lenOp o) := by
  cases o <;> first | exact pure _ | exact throw _

theorem truthOp (o : Obj) : Onward (PythonDice.truthOp o) := by
  cases o <;> first | exact pure _ | exact throw _

theorem iterOp (o : Obj) : Onward (PythonDice.iterOp o) := by
  cases o <;> first | exact pure _ | exact throw _

theorem myAnd (a b : Obj) : Onward (PythonDice.myAnd a b) := by
  unfold PythonDice.myAnd
  split
  · exact pure _
  · exact binop _ _ _

theorem myOr (a b : Obj) : Onward (PythonDice.myOr a b) := by
  unfold PythonDice.myOr
  split
  · exact pure _
  · exact binop _ _ _

theorem rvRmatmul (l : List ℤ) (r : RV ℤ) : Onward (PythonDice.rvRmatmul l r) := by
  unfold PythonDice.rvRmatmul
  split
  · exact (ofLimited _).bind fun _ => pure _
  · refine (castCall ?_ _).bind fun _ => pure _
    intro l
    unfold sumAtFn
    split
    · exact pure _
    · exact throw _

theorem matmul (a b : Obj) : Onward (PythonDice.matmul a b) := by
  unfold PythonDice.matmul
  split <;> first
    | exact pure _
    | exact throw _
    | exact rvRmatmul _ _
    | exact (ofSettings _).bind fun _ => pure _

theorem myMatmul (a b : Obj) : Onward (PythonDice.myMatmul a b) := by
  unfold PythonDice.myMatmul
  split
  · split
    · exact map _ (ofSettings _)
    · exact pure _
  · exact matmul _ _

theorem myRange (a b : Obj) : Onward (PythonDice.myRange a b) := by
  unfold PythonDice.myRange
  split
  · exact pure _
  · exact throw _

theorem addM (a b : RV ℤ) : Onward (PythonDice.addM a b) := ofLimited _

theorem rollNat (fuel n : ℕ) (d : RV ℤ) : Onward (PythonDice.rollNat fuel n d) := by
  induction fuel generalizing n with
  | zero => exact throw _
  | succ fuel ih =>
    unfold PythonDice.rollNat
    split
    · exact ofSettings _
    · split
      · exact pure _
      · refine bind (m := memoGet n d) (fun w d => rfl) fun r => ?_
        split
        · exact pure _
        · refine (ih _).bind fun half => (addM _ _).bind fun full => bind ?_ fun full => bind (modify fun w d => rfl) fun _ => pure _
          unfold addOdd
          split
          · exact addM _ _
          · exact pure _

theorem rollInt (n : ℤ) (d : RV ℤ) : Onward (PythonDice.rollInt n d) := by
  unfold PythonDice.rollInt
  split
  · exact (rollNat _ _ _).bind fun _ => ofSettings _
  · exact rollNat _ _ _

theorem asDie (d : Obj) : Onward (PythonDice.asDie d) := by
  unfold PythonDice.asDie
  split
  · split
    · exact map _ (ofSettings _)
    · split <;> exact map _ (ofSettings _)
  · split
    · exact pure _
    · exact map _ (ofSettings _)
  · exact pure _
  · exact pure _

theorem rollRV (n d : RV ℤ) : Onward (PythonDice.rollRV n d) := by
  unfold PythonDice.rollRV
  refine (forList (fun v => rollInt v d) _).bind fun dies => (ofLimited _).bind fun r => ?_
  split
  · exact pure _
  · exact throw _

theorem roll (n d : Obj) : Onward (PythonDice.roll n d) := by
  unfold PythonDice.roll
  split
  · exact pure _
  · exact pure _
  · refine (asDie _).bind fun x => ?_
    split
    · exact pure _
    · split
      · exact map _ (rollInt _ _)
      · exact map _ (rollInt _ _)
      · exact rollRV _ _
      · exact pure _

theorem roll1 (d : Obj) : Onward (PythonDice.roll1 d) := roll _ _

theorem emitOutput (o : Obj) (n : Option PyText) : Onward (PythonDice.emitOutput o n) := modify fun w d => by
  unfold World.ahead
  dsimp only
  rw [List.append_assoc]

theorem setSetting (n : List Char) (v : PyAny) : Onward (PythonDice.setSetting n v) := by
  intro w d
  unfold PythonDice.setSetting
  have e : (w.ahead d).settings = w.settings := rfl
  rw [e]
  split
  · rfl
  · split <;> rfl

theorem settingsSetObj (n : PyText) (o : Obj) : Onward (PythonDice.settingsSetObj n o) := by
  unfold PythonDice.settingsSetObj
  split
  · exact setSetting _ _
  · exact throw _

theorem settingsSetStr (n t : PyText) : Onward (PythonDice.settingsSetStr n t) := by
  unfold PythonDice.settingsSetStr
  split
  · exact setSetting _ _
  · exact throw _

theorem absolute (a : Obj) : Onward (PythonDice.absolute a) :=
  orBlank (castCall (fun l => by unfold absoluteFn; split <;> first | exact pure _ | exact throw _) _)

theorem contains (a b : Obj) : Onward (PythonDice.contains a b) :=
  orBlank (castCall (fun l => by unfold containsFn; split <;> first | exact pure _ | exact throw _) _)

theorem countIn (a b : Obj) : Onward (PythonDice.countIn a b) :=
  orBlank (castCall (fun l => by unfold countInFn; split <;> first | exact pure _ | exact throw _) _)

theorem reverse (a : Obj) : Onward (PythonDice.reverse a) :=
  orBlank (castCall (fun l => by unfold reverseFn; split <;> first | exact pure _ | exact throw _) _)

theorem maximumOf (a : Obj) : Onward (PythonDice.maximumOf a) :=
  orBlank (castCall (fun l => by
    unfold maximumOfFn
    split
    · exact (reverse _).bind fun _ => (matmul _ _).bind fun _ => pure _
    · exact throw _) _)

theorem explodeHelper (depth : ℕ) (n mx d : Obj) : Onward (PythonDice.explodeHelper depth n mx d) := by
  induction depth generalizing n mx d with
  | zero =>
    refine castCall (fun l => ?_) _
    split
    · exact pure _
    · exact throw _
  | succ k ih =>
    refine castCall (fun l => ?_) _
    split
    · split
      · exact (ih _ _ _).bind fun _ => (binop _ _ _).bind fun _ => pure _
      · exact pure _
    · exact throw _

theorem explode (d : Obj) : Onward (PythonDice.explode d) :=
  orBlank (castCall (fun l => by
    unfold explodeFn
    split
    · exact settings.bind fun _ => (maximumOf _).bind fun _ => explodeHelper _ _ _ _
    · exact throw _) _)

theorem highestN (a b : Obj) : Onward (PythonDice.highestN a b) :=
  orBlank (castCall (fun l => by unfold highestNFn; split <;> first | exact map _ (matmul _ _) | exact throw _) _)

theorem lowestN (a b : Obj) : Onward (PythonDice.lowestN a b) :=
  orBlank (castCall (fun l => by unfold lowestNFn; split <;> first | exact map _ (matmul _ _) | exact throw _) _)

theorem middleN (a b : Obj) : Onward (PythonDice.middleN a b) :=
  orBlank (castCall (fun l => by
    unfold middleNFn
    split
    · dsimp only
      split
      · exact pure _
      · split <;> exact map _ (matmul _ _)
    · exact throw _) _)

theorem highestOf (a b : Obj) : Onward (PythonDice.highestOf a b) :=
  orBlank (castCall (fun l => by unfold highestOfFn; split <;> first | exact pure _ | exact throw _) _)

theorem lowestOf (a b : Obj) : Onward (PythonDice.lowestOf a b) :=
  orBlank (castCall (fun l => by unfold lowestOfFn; split <;> first | exact pure _ | exact throw _) _)

theorem sort (a : Obj) : Onward (PythonDice.sort a) :=
  orBlank (castCall (fun l => by unfold sortFn; split <;> first | exact pure _ | exact throw _) _)

theorem trueDiv (a b : Obj) : Onward (PythonDice.trueDiv a b) := binop _ _ _

theorem depthCall {m : M (Option Obj)} (h : Onward m) : Onward (PythonDice.depthCall m) := by
  unfold PythonDice.depthCall
  refine settings.bind fun st => ?_
  split
  · split
    · exact pure _
    · exact bind (modify fun _ _ => rfl) fun _ => pure _
  · exact bind (modify fun _ _ => rfl) fun _ => h.bind fun _ => bind (modify fun _ _ => rfl) fun _ => pure _

theorem fnCall {f : List Obj → M (Option Obj)} (hf : ∀ l, Onward (f l)) (args : List (Option Ty × Obj)) : Onward (PythonDice.fnCall f args) :=
  depthCall (castCall hf args)

theorem runBin (i : Bool) (op : Compiler.BinOp) (a b : Obj) : Onward (Spec.runBin i op a b) := by
  cases op <;> unfold Spec.runBin <;> first
    | exact binop _ _ _
    | (cases i <;> first | exact binop _ _ _ | exact matmul _ _ | exact myMatmul _ _ | exact myAnd _ _ | exact myOr _ _)

theorem runUnary (i : Bool) (op : Compiler.UnOp) (a : Obj) : Onward (Spec.runUnary i op a) := by
  cases op <;> unfold Spec.runUnary <;> first
    | exact posOp _
    | exact negOp _
    | (cases i <;> first | exact myInvert _ | exact invertOp _)

theorem runLen (i : Bool) (a : Obj) : Onward (Spec.runLen i a) := by
  cases i
  · exact lenOp _
  · exact pure _

end Onward

open Spec Compiler

/-- Functions of the library that do not notice what was output before. -/
def FnsOnward (l : Fns) : Prop := ∀ p ∈ l, ∀ f, p.2 = .lib f → ∀ args, Onward (f args)

/-- The same of calls. -/
def CallOnward (call : RunCall) : Prop := ∀ fr l d body args, FnsOnward l → Onward (call fr l d body args)

/-- The same of statements. -/
def StOnward (m : M (State × Option Obj)) : Prop := Onward m ∧ ∀ w r, (m w).1 = .ok r → FnsOnward r.1.fns

namespace StOnward

theorem pure {s : State} {v : Option Obj} (h : FnsOnward s.fns) : StOnward (Pure.pure (s, v)) :=
  ⟨Onward.pure _, fun _ r hr => by cases hr; exact h⟩

theorem bind {α : Type} {m : M α} {f : α → M (State × Option Obj)} (hm : Onward m) (hf : ∀ a, StOnward (f a)) : StOnward (m >>= f) := by
  refine ⟨hm.bind fun a => (hf a).1, fun w r hr => ?_⟩
  rw [M.bind_apply] at hr
  rcases hx : m w with ⟨x, v⟩
  rw [hx] at hr
  cases x with
  | error e => cases hr
  | ok a => exact (hf a).2 v r hr

theorem next {m : M (State × Option Obj)} {f : State × Option Obj → M (State × Option Obj)} (hm : StOnward m)
    (hf : ∀ r, FnsOnward r.1.fns → StOnward (f r)) : StOnward (m >>= f) := by
  constructor
  · intro w d
    have h := hm.1 w d
    rw [M.bind_apply, M.bind_apply, h]
    have h2 := hm.2 w
    revert h2
    rcases m w with ⟨r | r, v⟩ <;> intro h2
    · rfl
    · exact (hf r (h2 r rfl)).1 v d
  · intro w r hr
    rw [M.bind_apply] at hr
    have h2 := hm.2 w
    revert h2 hr
    rcases m w with ⟨x | x, v⟩ <;> intro hr h2
    · cases hr
    · exact (hf x (h2 x rfl)).2 v r hr

end StOnward

section
variable {R : Rules} {call : RunCall}

theorem onward_getVar (fr : Frame) (x : List Char) : Onward (getVar R fr x) := by
  unfold getVar
  split
  · exact Onward.pure _
  · exact Onward.throw _

theorem onward_text (fr : Frame) (ps : List StrPart) : Onward (textOf R fr ps) := by
  induction ps with
  | nil => exact Onward.pure _
  | cons p ps ih =>
    cases p with
    | text s => exact ih.bind fun _ => Onward.pure _
    | var x => exact (onward_getVar fr x).bind fun _ => ih.bind fun _ => Onward.pure _

mutual

theorem onward_E (hc : CallOnward call) {fns : Fns} (hf : FnsOnward fns) (fr : Frame) (e : Expr) : Onward (runE R call fns fr e) := by
  match e with
  | .num n => exact Onward.pure _
  | .dec _ _ => exact Onward.throw _
  | .var x => exact (onward_getVar fr x)
  | .str _ => exact Onward.throw _
  | .group e =>
    rw [runE]
    exact onward_E hc hf fr e
  | .bin op l r =>
    rw [runE]
    exact (onward_E hc hf fr l).bind fun a => (onward_E hc hf fr r).bind fun b => (Onward.runBin _ _ _ _)
  | .ndm l r =>
    rw [runE]
    exact (onward_E hc hf fr l).bind fun a => (onward_E hc hf fr r).bind fun b => (Onward.roll _ _)
  | .dm r =>
    rw [runE]
    exact (onward_E hc hf fr r).bind fun b => (Onward.roll1 _)
  | .unary op e =>
    rw [runE]
    exact (onward_E hc hf fr e).bind fun b => (Onward.runUnary _ _ _)
  | .hash e =>
    rw [runE]
    exact (onward_E hc hf fr e).bind fun b => (Onward.runLen _ _)
  | .seq es =>
    rw [runE]
    exact (onward_L hc hf fr es).bind fun b => Onward.pure _
  | .call cs =>
    rw [runE]
    unfold getFn
    cases hl : fns.lookup (callSig cs) with
    | none => exact fun _ _ => rfl
    | some f =>
      obtain ⟨p, hp, rfl⟩ := lookup_mem hl
      refine (onward_C hc hf fr cs).bind fun args => ?_
      rcases hp2 : p.2 with ⟨d, body⟩ | g
      · exact hc fr fns d body args hf
      · exact hf p hp g hp2 args

theorem onward_L (hc : CallOnward call) {fns : Fns} (hf : FnsOnward fns) (fr : Frame) (es : Elems) : Onward (runElems R call fns fr es) := by
  match es with
  | .nil => exact Onward.pure _
  | .expr e es =>
    rw [runElems]
    exact (onward_E hc hf fr e).bind fun a => (onward_L hc hf fr es).bind fun b => Onward.pure _
  | .range l r es =>
    rw [runElems]
    exact (onward_E hc hf fr l).bind fun a => (onward_E hc hf fr r).bind fun b => ((Onward.myRange _ _)).bind fun s =>
      (onward_L hc hf fr es).bind fun b => Onward.pure _

theorem onward_C (hc : CallOnward call) {fns : Fns} (hf : FnsOnward fns) (fr : Frame) (cs : CallParts) :
    Onward (runArgs R call fns fr cs) := by
  match cs with
  | .nil => exact Onward.pure _
  | .word w cs =>
    rw [runArgs]
    exact onward_C hc hf fr cs
  | .arg e cs =>
    rw [runArgs]
    exact (onward_E hc hf fr e).bind fun a => (onward_C hc hf fr cs).bind fun b => Onward.pure _

end

theorem onward_loop {f : State → ℤ → M (State × Option Obj)} (h : ∀ s n, FnsOnward s.fns → StOnward (f s n)) (ns : List ℤ) :
    ∀ s : State, FnsOnward s.fns → StOnward (runLoop f ns s) := by
  induction ns with
  | nil => exact fun s hs => StOnward.pure hs
  | cons n ns ih =>
    intro s hs
    rw [runLoop]
    refine (h s n hs).next fun r hr => ?_
    obtain ⟨s1, o⟩ := r
    cases o with
    | some v => exact StOnward.pure hr
    | none => exact ih s1 hr

mutual

theorem onward_S (hc : CallOnward call) (st : Stmt) (s : State) (hf : FnsOnward s.fns) :
    StOnward (runS R call st s) := by
  match st with
  | .output e =>
    rw [runS]
    exact StOnward.bind (onward_E hc hf _ e) fun o => StOnward.bind ((Onward.emitOutput _ _)) fun _ => StOnward.pure hf
  | .outputNamed e n =>
    rw [runS]
    exact StOnward.bind (onward_E hc hf _ e) fun o => StOnward.bind ((onward_text _ _)) fun _ =>
      StOnward.bind ((Onward.emitOutput _ _)) fun _ => StOnward.pure hf
  | .set n v =>
    rw [runS]
    refine StOnward.bind ?_ fun _ => StOnward.pure hf
    unfold runSet
    split
    · exact (onward_text _ _).bind fun _ => (onward_text _ _).bind fun _ => Onward.settingsSetStr _ _
    · exact (onward_text _ _).bind fun _ => (onward_E hc hf _ _).bind fun _ => Onward.settingsSetObj _ _
  | .function d body =>
    rw [runS]
    refine StOnward.pure fun p hp => ?_
    rcases List.mem_cons.1 hp with rfl | hp
    · intro f e
      cases e
    · exact hf p hp
  | .result e =>
    rw [runS]
    exact StOnward.bind (onward_E hc hf _ e) fun o => StOnward.pure hf
  | .cond x b r =>
    rw [runS]
    refine StOnward.bind (onward_E hc hf _ x) fun o => StOnward.bind ((Onward.truthOp _)) fun t => ?_
    cases t with
    | true => exact onward_B hc b s hf
    | false => exact onward_Else hc r s hf
  | .loop x e b =>
    rw [runS]
    exact StOnward.bind (onward_E hc hf _ e) fun o => StOnward.bind ((Onward.iterOp _)) fun ns =>
      onward_loop (fun s' n hs' => onward_B hc b { s' with fr := s'.fr.set x (.num n) } hs') ns s hf
  | .assign x e =>
    rw [runS]
    exact StOnward.bind (onward_E hc hf _ e) fun o => StOnward.pure hf

theorem onward_B (hc : CallOnward call) (b : Block) (s : State) (hf : FnsOnward s.fns) :
    StOnward (runB R call b s) := by
  match b with
  | .nil =>
    rw [runB]
    exact StOnward.pure hf
  | .cons st b =>
    rw [runB]
    refine (onward_S hc st s hf).next fun r hr => ?_
    obtain ⟨s1, o⟩ := r
    cases o with
    | some v => exact StOnward.pure hr
    | none => exact onward_B hc b s1 hr

theorem onward_Else (hc : CallOnward call) (r : Else) (s : State) (hf : FnsOnward s.fns) :
    StOnward (runElse R call r s) := by
  match r with
  | .done =>
    rw [runElse]
    exact StOnward.pure hf
  | .else_ b =>
    rw [runElse]
    exact onward_B hc b s hf
  | .elif x b r =>
    rw [runElse]
    refine StOnward.bind (onward_E hc hf _ x) fun o => StOnward.bind ((Onward.truthOp _)) fun t => ?_
    cases t with
    | true => exact onward_B hc b s hf
    | false => exact onward_Else hc r s hf

end

theorem onward_call (n : ℕ) : CallOnward (runCall R n) := by
  induction n with
  | zero => exact fun _ _ _ _ _ _ => Onward.throw _
  | succ n ih =>
    intro fr fns d body args hf
    rw [runCall]
    exact Onward.fnCall (fun os => (onward_B ih body _ hf).1.bind fun r => Onward.pure _) _

end


theorem libraryFns_onward (R : Rules) : FnsOnward (if R.lib then libraryFns else []) := by
  intro p hp f hpf args
  have two : ∀ {g : Obj → Obj → M Obj} {f : List Obj → M Obj}, (∀ a b, Onward (g a b)) → fn2 g = .lib f → Onward (f args) := by
    intro g f h e
    cases e
    dsimp only
    split
    · exact h _ _
    · exact Onward.throw _
  have one : ∀ {g : Obj → M Obj} {f : List Obj → M Obj}, (∀ a, Onward (g a)) → fn1 g = .lib f → Onward (f args) := by
    intro g f h e
    cases e
    dsimp only
    split
    · exact h _
    · exact Onward.throw _
  cases hR : R.lib with
  | false => rw [hR] at hp; cases hp
  | true =>
    rw [hR, if_pos rfl] at hp
    unfold libraryFns at hp
    simp only [List.mem_cons, List.not_mem_nil, or_false] at hp
    rcases hp with rfl | rfl | rfl | rfl | rfl | rfl | rfl | rfl | rfl | rfl | rfl | rfl | rfl
    · exact one Onward.absolute hpf
    · exact two Onward.contains hpf
    · exact two Onward.countIn hpf
    · exact one Onward.explode hpf
    · exact two Onward.highestN hpf
    · exact two Onward.lowestN hpf
    · exact two Onward.middleN hpf
    · exact two Onward.highestOf hpf
    · exact two Onward.lowestOf hpf
    · exact one Onward.maximumOf hpf
    · exact one Onward.reverse hpf
    · exact one Onward.sort hpf
    · exact two Onward.trueDiv hpf

/-- A program does the same whatever was output before it, and its outputs come after those. -/
theorem block_onward (R : Rules) (n : ℕ) (b : Block) : Onward (runB R (runCall R n) b ⟨if R.lib then libraryFns else [], ⟨none, [], []⟩⟩) :=
  (onward_B (onward_call n) b _ (libraryFns_onward R)).1

end PythonDice
