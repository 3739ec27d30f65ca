import Verif.Model.Exec
import Verif.Spec.Run
import Verif.Proofs.Tidy

/-!
# Nothing forgets a roll
-/

namespace PythonDice

/-- How states may change: whatever the library does to its state is such a change. -/
class Course (ρ : World → World → Prop) : Prop where
  refl : ∀ w, ρ w w
  trans : ∀ {u v w}, ρ u v → ρ v w → ρ u w
  settings : ∀ w s, ρ w { w with settings := s }
  warn : ∀ w, ρ w { w with warns := w.warns + 1 }
  depth : ∀ w, ρ w { w with depthMsgs := w.depthMsgs + 1 }
  out : ∀ w o, ρ w { w with outs := w.outs ++ [o] }
  dicts : ∀ w d, w.dicts.length ≤ d.length → ρ w { w with dicts := d }
  roll : ∀ fuel n d w, ρ w (rollNat fuel n d w).2

/-- A computation that changes states so. -/
def Drifts (ρ : World → World → Prop) {α : Type} (m : M α) : Prop := ∀ w : World, ρ w (m w).2

namespace Drifts
variable {α β : Type} {ρ : World → World → Prop} [Course ρ]

theorem pure (x : α) : Drifts ρ (Pure.pure x : M α) := fun w => Course.refl w

theorem throw (e : Err) : Drifts ρ (M.throw e : M α) := fun w => Course.refl w

theorem settings : Drifts ρ M.settings := fun w => Course.refl w

theorem ofSettings (f : Settings → Except Err α) : Drifts ρ (M.ofSettings f) := fun w => Course.refl w

theorem ofLimited (f : Settings → Except Err (α × Bool)) : Drifts ρ (M.ofLimited f) := by
  intro w
  unfold M.ofLimited
  rcases f w.settings with e | ⟨x, b⟩
  · exact Course.refl _
  · cases b
    · exact Course.refl _
    · exact Course.warn _

theorem modify {f : World → World} (h : ∀ w, ρ w (f w)) : Drifts ρ (M.modify f) := h

theorem bind {m : M α} {f : α → M β} (hm : Drifts ρ m) (hf : ∀ x, Drifts ρ (f x)) : Drifts ρ (m >>= f) := by
  intro w
  show ρ w (M.bind m f w).2
  have h := hm w
  unfold M.bind
  revert h
  rcases m w with ⟨r, w'⟩
  intro h
  cases r with
  | error e => exact h
  | ok x => exact Course.trans h (hf x w')

theorem map {m : M α} (f : α → β) (hm : Drifts ρ m) : Drifts ρ (f <$> m) := by
  have e : f <$> m = m >>= fun x => Pure.pure (f x) := rfl
  rw [e]
  exact hm.bind fun x => pure _

theorem forList {f : α → M β} (hf : ∀ x, Drifts ρ (f x)) (l : List α) : Drifts ρ (M.forList f l) := by
  induction l with
  | nil => exact pure []
  | cons x xs ih => exact (hf x).bind fun y => ih.bind fun ys => pure _

theorem castSlot (ty : Option Ty) (o : Obj) : Drifts ρ (PythonDice.castSlot ty o) := by
  unfold PythonDice.castSlot
  split <;> first
    | exact pure _
    | exact (ofSettings _).bind fun _ => pure _

theorem castCall {f : List Obj → M (Option Obj)} (hf : ∀ l, Drifts ρ (f l)) (args : List (Option Ty × Obj)) :
    Drifts ρ (PythonDice.castCall f args) := by
  unfold PythonDice.castCall
  split
  · exact pure _
  · refine (forList (ρ := ρ) (fun a => castSlot a.1 a.2) args).bind fun slots => ?_
    split
    · exact (forList (fun c : List Obj × ℕ => (hf c.1).bind fun v => pure _) _).bind fun res => (ofLimited _).bind fun r => pure _
    · exact hf _

theorem orBlank {m : M (Option Obj)} (hm : Drifts ρ m) : Drifts ρ (PythonDice.orBlank m) := hm.bind fun _ => pure _

theorem negObj (o : Obj) : Drifts ρ (PythonDice.negObj o) := by
  cases o <;> first | exact pure _ | exact map _ (ofSettings _)

theorem blankL (op : BinOp) (s : Bool) (o : Obj) : Drifts ρ (PythonDice.blankL op s o) := by
  unfold PythonDice.blankL
  split
  · split
    · exact pure _
    · exact negObj o
  · exact pure _

theorem numBinop (op : BinOp) (x : ℤ) (o : Obj) : Drifts ρ (PythonDice.numBinop op x o) := by
  unfold PythonDice.numBinop
  split
  · exact map _ (ofSettings _)
  · split
    · exact pure _
    · exact map _ (ofSettings _)
  · split <;> exact map _ (ofSettings _)
  · exact pure _

theorem binop (op : BinOp) (a b : Obj) : Drifts ρ (PythonDice.binop op a b) := by
  unfold PythonDice.binop
  split
  · exact numBinop _ _ _
  · split
    · exact pure _
    · exact map _ (ofSettings _)
  · split
    · exact pure _
    · exact map _ (ofSettings _)
  · exact numBinop _ _ _
  · exact map _ (ofSettings _)
  · exact map _ (ofSettings _)
  · exact map _ (ofLimited _)
  · exact pure _
  · exact blankL _ _ _

theorem negOp (o : Obj) : Drifts ρ (PythonDice.negOp o) := by
  cases o <;> first | exact pure _ | exact throw _ | exact map _ (ofSettings _)

theorem posOp (o : Obj) : Drifts ρ (PythonDice.posOp o) := by
  cases o <;> first | exact pure _ | exact throw _

theorem myInvert (o : Obj) : Drifts ρ (PythonDice.myInvert o) := by
  cases o <;> first | exact pure _ | exact map _ (ofSettings _)

theorem invertOp (o : Obj) : Drifts ρ (PythonDice.invertOp o) := by
  cases o <;> first | exact pure _ | exact map _ (ofSettings _)

theorem lenOp (o : Obj) : Drifts ρ (PythonDice.lenOp o) := by
  cases o <;> first | exact pure _ | exact throw _

theorem truthOp (o : Obj) : Drifts ρ (PythonDice.truthOp o) := by
  cases o <;> first | exact pure _ | exact throw _

theorem iterOp (o : Obj) : Drifts ρ (PythonDice.iterOp o) := by
  cases o <;> first | exact pure _ | exact throw _

theorem myAnd (a b : Obj) : Drifts ρ (PythonDice.myAnd a b) := by
  unfold PythonDice.myAnd
  split
  · exact pure _
  · exact binop _ _ _

theorem myOr (a b : Obj) : Drifts ρ (PythonDice.myOr a b) := by
  unfold PythonDice.myOr
  split
  · exact pure _
  · exact binop _ _ _

theorem rvRmatmul (l : List ℤ) (r : RV ℤ) : Drifts ρ (PythonDice.rvRmatmul l r) := by
  unfold PythonDice.rvRmatmul
  split
  · exact (ofLimited _).bind fun _ => pure _
  · refine (castCall ?_ _).bind fun _ => pure _
    intro l
    unfold sumAtFn
    split
    · exact pure _
    · exact throw _

theorem matmul (a b : Obj) : Drifts ρ (PythonDice.matmul a b) := by
  unfold PythonDice.matmul
  split <;> first
    | exact pure _
    | exact throw _
    | exact rvRmatmul _ _
    | exact (ofSettings _).bind fun _ => pure _

theorem myMatmul (a b : Obj) : Drifts ρ (PythonDice.myMatmul a b) := by
  unfold PythonDice.myMatmul
  split
  · split
    · exact map _ (ofSettings _)
    · exact pure _
  · exact matmul _ _

theorem myRange (a b : Obj) : Drifts ρ (PythonDice.myRange a b) := by
  unfold PythonDice.myRange
  split
  · exact pure _
  · exact throw _

theorem addM (a b : RV ℤ) : Drifts ρ (PythonDice.addM a b) := ofLimited _

theorem rollNat (fuel n : ℕ) (d : RV ℤ) : Drifts ρ (PythonDice.rollNat fuel n d) := fun w => Course.roll fuel n d w

theorem rollInt (n : ℤ) (d : RV ℤ) : Drifts ρ (PythonDice.rollInt n d) := by
  unfold PythonDice.rollInt
  split
  · exact (rollNat _ _ _).bind fun _ => ofSettings _
  · exact rollNat _ _ _

theorem asDie (d : Obj) : Drifts ρ (PythonDice.asDie d) := by
  unfold PythonDice.asDie
  split
  · split
    · exact map _ (ofSettings _)
    · split <;> exact map _ (ofSettings _)
  · split
    · exact pure _
    · exact map _ (ofSettings _)
  · exact pure _
  · exact pure _

theorem rollRV (n d : RV ℤ) : Drifts ρ (PythonDice.rollRV n d) := by
  unfold PythonDice.rollRV
  refine (forList (fun v => rollInt v d) _).bind fun dies => (ofLimited _).bind fun r => ?_
  split
  · exact pure _
  · exact throw _

theorem roll (n d : Obj) : Drifts ρ (PythonDice.roll n d) := by
  unfold PythonDice.roll
  split
  · exact pure _
  · exact pure _
  · refine (asDie _).bind fun x => ?_
    split
    · exact pure _
    · split
      · exact map _ (rollInt _ _)
      · exact map _ (rollInt _ _)
      · exact rollRV _ _
      · exact pure _

theorem roll1 (d : Obj) : Drifts ρ (PythonDice.roll1 d) := roll _ _

theorem emitOutput (o : Obj) (n : Option PyText) : Drifts ρ (PythonDice.emitOutput o n) := modify fun w => Course.out w (o, n)

theorem setSetting (n : List Char) (v : PyAny) : Drifts ρ (PythonDice.setSetting n v) := by
  intro w
  unfold PythonDice.setSetting
  split
  · exact Course.refl _
  · split
    · exact Course.settings _ _
    · exact Course.refl _

theorem settingsSetObj (n : PyText) (o : Obj) : Drifts ρ (PythonDice.settingsSetObj n o) := by
  unfold PythonDice.settingsSetObj
  split
  · exact setSetting _ _
  · exact throw _

theorem settingsSetStr (n t : PyText) : Drifts ρ (PythonDice.settingsSetStr n t) := by
  unfold PythonDice.settingsSetStr
  split
  · exact setSetting _ _
  · exact throw _

theorem absolute (a : Obj) : Drifts ρ (PythonDice.absolute a) :=
  orBlank (castCall (fun l => by unfold absoluteFn; split <;> first | exact pure _ | exact throw _) _)

theorem contains (a b : Obj) : Drifts ρ (PythonDice.contains a b) :=
  orBlank (castCall (fun l => by unfold containsFn; split <;> first | exact pure _ | exact throw _) _)

theorem countIn (a b : Obj) : Drifts ρ (PythonDice.countIn a b) :=
  orBlank (castCall (fun l => by unfold countInFn; split <;> first | exact pure _ | exact throw _) _)

theorem reverse (a : Obj) : Drifts ρ (PythonDice.reverse a) :=
  orBlank (castCall (fun l => by unfold reverseFn; split <;> first | exact pure _ | exact throw _) _)

theorem maximumOf (a : Obj) : Drifts ρ (PythonDice.maximumOf a) :=
  orBlank (castCall (fun l => by
    unfold maximumOfFn
    split
    · exact (reverse _).bind fun _ => (matmul _ _).bind fun _ => pure _
    · exact throw _) _)

theorem explodeHelper (depth : ℕ) (n mx d : Obj) : Drifts ρ (PythonDice.explodeHelper depth n mx d) := by
  induction depth generalizing n mx d with
  | zero =>
    refine castCall (fun l => ?_) _
    split
    · exact pure _
    · exact throw _
  | succ k ih =>
    refine castCall (fun l => ?_) _
    split
    · split
      · exact (ih _ _ _).bind fun _ => (binop _ _ _).bind fun _ => pure _
      · exact pure _
    · exact throw _

theorem explode (d : Obj) : Drifts ρ (PythonDice.explode d) :=
  orBlank (castCall (fun l => by
    unfold explodeFn
    split
    · exact settings.bind fun _ => (maximumOf _).bind fun _ => explodeHelper _ _ _ _
    · exact throw _) _)

theorem highestN (a b : Obj) : Drifts ρ (PythonDice.highestN a b) :=
  orBlank (castCall (fun l => by unfold highestNFn; split <;> first | exact map _ (matmul _ _) | exact throw _) _)

theorem lowestN (a b : Obj) : Drifts ρ (PythonDice.lowestN a b) :=
  orBlank (castCall (fun l => by unfold lowestNFn; split <;> first | exact map _ (matmul _ _) | exact throw _) _)

theorem middleN (a b : Obj) : Drifts ρ (PythonDice.middleN a b) :=
  orBlank (castCall (fun l => by
    unfold middleNFn
    split
    · dsimp only
      split
      · exact pure _
      · split <;> exact map _ (matmul _ _)
    · exact throw _) _)

theorem highestOf (a b : Obj) : Drifts ρ (PythonDice.highestOf a b) :=
  orBlank (castCall (fun l => by unfold highestOfFn; split <;> first | exact pure _ | exact throw _) _)

theorem lowestOf (a b : Obj) : Drifts ρ (PythonDice.lowestOf a b) :=
  orBlank (castCall (fun l => by unfold lowestOfFn; split <;> first | exact pure _ | exact throw _) _)

theorem sort (a : Obj) : Drifts ρ (PythonDice.sort a) :=
  orBlank (castCall (fun l => by unfold sortFn; split <;> first | exact pure _ | exact throw _) _)

theorem trueDiv (a b : Obj) : Drifts ρ (PythonDice.trueDiv a b) := binop _ _ _

theorem depthCall {m : M (Option Obj)} (h : Drifts ρ m) : Drifts ρ (PythonDice.depthCall m) := by
  unfold PythonDice.depthCall
  refine settings.bind fun st => ?_
  split
  · split
    · exact pure _
    · exact bind (modify fun w => Course.trans (Course.depth w) (Course.settings { w with depthMsgs := w.depthMsgs + 1 } _)) fun _ => pure _
  · exact bind (modify fun w => Course.settings w _) fun _ => h.bind fun _ => bind (modify fun w => Course.settings w _) fun _ => pure _

theorem fnCall {f : List Obj → M (Option Obj)} (hf : ∀ l, Drifts ρ (f l)) (args : List (Option Ty × Obj)) : Drifts ρ (PythonDice.fnCall f args) :=
  depthCall (castCall hf args)

theorem runBin (i : Bool) (op : Compiler.BinOp) (a b : Obj) : Drifts ρ (Spec.runBin i op a b) := by
  cases op <;> unfold Spec.runBin <;> first
    | exact binop _ _ _
    | (cases i <;> first | exact binop _ _ _ | exact matmul _ _ | exact myMatmul _ _ | exact myAnd _ _ | exact myOr _ _)

theorem runUnary (i : Bool) (op : Compiler.UnOp) (a : Obj) : Drifts ρ (Spec.runUnary i op a) := by
  cases op <;> unfold Spec.runUnary <;> first
    | exact posOp _
    | exact negOp _
    | (cases i <;> first | exact myInvert _ | exact invertOp _)

theorem runLen (i : Bool) (a : Obj) : Drifts ρ (Spec.runLen i a) := by
  cases i
  · exact lenOp _
  · exact pure _

end Drifts

open Spec Compiler

/-- Functions of the library that do not notice what was output before. -/
def FnsDrifts (ρ : World → World → Prop) (l : Fns) : Prop := ∀ p ∈ l, ∀ f, p.2 = .lib f → ∀ args, Drifts ρ (f args)

/-- The same of calls. -/
def CallDrifts (ρ : World → World → Prop) (call : RunCall) : Prop := ∀ fr l d body args, FnsDrifts ρ l → Drifts ρ (call fr l d body args)

/-- The same of statements. -/
def StDrifts (ρ : World → World → Prop) (m : M (State × Option Obj)) : Prop := Drifts ρ m ∧ ∀ w r, (m w).1 = .ok r → FnsDrifts ρ r.1.fns

namespace StDrifts
variable {ρ : World → World → Prop} [Course ρ]

theorem pure {s : State} {v : Option Obj} (h : FnsDrifts ρ s.fns) : StDrifts ρ (Pure.pure (s, v)) :=
  ⟨Drifts.pure _, fun _ _ hr => by cases hr; exact h⟩

theorem bind {α : Type} {m : M α} {f : α → M (State × Option Obj)} (hm : Drifts ρ m) (hf : ∀ a, StDrifts ρ (f a)) : StDrifts ρ (m >>= f) := by
  refine ⟨hm.bind fun a => (hf a).1, fun w r hr => ?_⟩
  rw [M.bind_apply] at hr
  revert hr
  rcases m w with ⟨x | x, v⟩ <;> intro hr
  · cases hr
  · exact (hf x).2 v r hr

theorem next {m : M (State × Option Obj)} {f : State × Option Obj → M (State × Option Obj)} (hm : StDrifts ρ m)
    (hf : ∀ r, FnsDrifts ρ r.1.fns → StDrifts ρ (f r)) : StDrifts ρ (m >>= f) := by
  constructor
  · intro w
    have h := hm.1 w
    rw [M.bind_apply]
    have h2 := hm.2 w
    revert h2 h
    rcases m w with ⟨r | r, v⟩ <;> intro h h2
    · exact h
    · exact Course.trans h ((hf r (h2 r rfl)).1 v)
  · intro w r hr
    rw [M.bind_apply] at hr
    have h2 := hm.2 w
    revert h2 hr
    rcases m w with ⟨x | x, v⟩ <;> intro hr h2
    · cases hr
    · exact (hf x (h2 x rfl)).2 v r hr

end StDrifts

section
variable {R : Rules} {call : RunCall} {ρ : World → World → Prop} [Course ρ]

theorem drifts_getVar (fr : Frame) (x : List Char) : Drifts ρ (getVar R fr x) := by
  unfold getVar
  split
  · exact Drifts.pure _
  · exact Drifts.throw _

theorem drifts_text (fr : Frame) (ps : List StrPart) : Drifts ρ (textOf R fr ps) := by
  induction ps with
  | nil => exact Drifts.pure _
  | cons p ps ih =>
    cases p with
    | text s => exact ih.bind fun _ => Drifts.pure _
    | var x => exact (drifts_getVar fr x).bind fun _ => ih.bind fun _ => Drifts.pure _

mutual

theorem drifts_E (hc : CallDrifts ρ call) {fns : Fns} (hf : FnsDrifts ρ fns) (fr : Frame) (e : Expr) : Drifts ρ (runE R call fns fr e) := by
  match e with
  | .num n => exact Drifts.pure _
  | .dec _ _ => exact Drifts.throw _
  | .var x => exact (drifts_getVar fr x)
  | .str _ => exact Drifts.throw _
  | .group e =>
    rw [runE]
    exact drifts_E hc hf fr e
  | .bin op l r =>
    rw [runE]
    exact (drifts_E hc hf fr l).bind fun a => (drifts_E hc hf fr r).bind fun b => (Drifts.runBin _ _ _ _)
  | .ndm l r =>
    rw [runE]
    exact (drifts_E hc hf fr l).bind fun a => (drifts_E hc hf fr r).bind fun b => (Drifts.roll _ _)
  | .dm r =>
    rw [runE]
    exact (drifts_E hc hf fr r).bind fun b => (Drifts.roll1 _)
  | .unary op e =>
    rw [runE]
    exact (drifts_E hc hf fr e).bind fun b => (Drifts.runUnary _ _ _)
  | .hash e =>
    rw [runE]
    exact (drifts_E hc hf fr e).bind fun b => (Drifts.runLen _ _)
  | .seq es =>
    rw [runE]
    exact (drifts_L hc hf fr es).bind fun b => Drifts.pure _
  | .call cs =>
    rw [runE]
    unfold getFn
    cases hl : fns.lookup (callSig cs) with
    | none => exact fun w => Course.refl w
    | some f =>
      obtain ⟨p, hp, rfl⟩ := lookup_mem hl
      refine (drifts_C hc hf fr cs).bind fun args => ?_
      rcases hp2 : p.2 with ⟨d, body⟩ | g
      · exact hc fr fns d body args hf
      · exact hf p hp g hp2 args

theorem drifts_L (hc : CallDrifts ρ call) {fns : Fns} (hf : FnsDrifts ρ fns) (fr : Frame) (es : Elems) : Drifts ρ (runElems R call fns fr es) := by
  match es with
  | .nil => exact Drifts.pure _
  | .expr e es =>
    rw [runElems]
    exact (drifts_E hc hf fr e).bind fun a => (drifts_L hc hf fr es).bind fun b => Drifts.pure _
  | .range l r es =>
    rw [runElems]
    exact (drifts_E hc hf fr l).bind fun a => (drifts_E hc hf fr r).bind fun b => ((Drifts.myRange _ _)).bind fun s =>
      (drifts_L hc hf fr es).bind fun b => Drifts.pure _

theorem drifts_C (hc : CallDrifts ρ call) {fns : Fns} (hf : FnsDrifts ρ fns) (fr : Frame) (cs : CallParts) :
    Drifts ρ (runArgs R call fns fr cs) := by
  match cs with
  | .nil => exact Drifts.pure _
  | .word w cs =>
    rw [runArgs]
    exact drifts_C hc hf fr cs
  | .arg e cs =>
    rw [runArgs]
    exact (drifts_E hc hf fr e).bind fun a => (drifts_C hc hf fr cs).bind fun b => Drifts.pure _

end

theorem drifts_loop {f : State → ℤ → M (State × Option Obj)} (h : ∀ s n, FnsDrifts ρ s.fns → StDrifts ρ (f s n)) (ns : List ℤ) :
    ∀ s : State, FnsDrifts ρ s.fns → StDrifts ρ (runLoop f ns s) := by
  induction ns with
  | nil => exact fun s hs => StDrifts.pure hs
  | cons n ns ih =>
    intro s hs
    rw [runLoop]
    refine (h s n hs).next fun r hr => ?_
    obtain ⟨s1, o⟩ := r
    cases o with
    | some v => exact StDrifts.pure hr
    | none => exact ih s1 hr

mutual

theorem drifts_S (hc : CallDrifts ρ call) (st : Stmt) (s : State) (hf : FnsDrifts ρ s.fns) :
    StDrifts ρ (runS R call st s) := by
  match st with
  | .output e =>
    rw [runS]
    exact StDrifts.bind (drifts_E hc hf _ e) fun o => StDrifts.bind ((Drifts.emitOutput _ _)) fun _ => StDrifts.pure hf
  | .outputNamed e n =>
    rw [runS]
    exact StDrifts.bind (drifts_E hc hf _ e) fun o => StDrifts.bind ((drifts_text _ _)) fun _ =>
      StDrifts.bind ((Drifts.emitOutput _ _)) fun _ => StDrifts.pure hf
  | .set n v =>
    rw [runS]
    refine StDrifts.bind ?_ fun _ => StDrifts.pure hf
    unfold runSet
    split
    · exact (drifts_text _ _).bind fun _ => (drifts_text _ _).bind fun _ => Drifts.settingsSetStr _ _
    · exact (drifts_text _ _).bind fun _ => (drifts_E hc hf _ _).bind fun _ => Drifts.settingsSetObj _ _
  | .function d body =>
    rw [runS]
    refine StDrifts.pure fun p hp => ?_
    rcases List.mem_cons.1 hp with rfl | hp
    · intro f e
      cases e
    · exact hf p hp
  | .result e =>
    rw [runS]
    exact StDrifts.bind (drifts_E hc hf _ e) fun o => StDrifts.pure hf
  | .cond x b r =>
    rw [runS]
    refine StDrifts.bind (drifts_E hc hf _ x) fun o => StDrifts.bind ((Drifts.truthOp _)) fun t => ?_
    cases t with
    | true => exact drifts_B hc b s hf
    | false => exact drifts_Else hc r s hf
  | .loop x e b =>
    rw [runS]
    exact StDrifts.bind (drifts_E hc hf _ e) fun o => StDrifts.bind ((Drifts.iterOp _)) fun ns =>
      drifts_loop (fun s' n hs' => drifts_B hc b { s' with fr := s'.fr.set x (.num n) } hs') ns s hf
  | .assign x e =>
    rw [runS]
    exact StDrifts.bind (drifts_E hc hf _ e) fun o => StDrifts.pure hf

theorem drifts_B (hc : CallDrifts ρ call) (b : Block) (s : State) (hf : FnsDrifts ρ s.fns) :
    StDrifts ρ (runB R call b s) := by
  match b with
  | .nil =>
    rw [runB]
    exact StDrifts.pure hf
  | .cons st b =>
    rw [runB]
    refine (drifts_S hc st s hf).next fun r hr => ?_
    obtain ⟨s1, o⟩ := r
    cases o with
    | some v => exact StDrifts.pure hr
    | none => exact drifts_B hc b s1 hr

theorem drifts_Else (hc : CallDrifts ρ call) (r : Else) (s : State) (hf : FnsDrifts ρ s.fns) :
    StDrifts ρ (runElse R call r s) := by
  match r with
  | .done =>
    rw [runElse]
    exact StDrifts.pure hf
  | .else_ b =>
    rw [runElse]
    exact drifts_B hc b s hf
  | .elif x b r =>
    rw [runElse]
    refine StDrifts.bind (drifts_E hc hf _ x) fun o => StDrifts.bind ((Drifts.truthOp _)) fun t => ?_
    cases t with
    | true => exact drifts_B hc b s hf
    | false => exact drifts_Else hc r s hf

end

theorem drifts_call (n : ℕ) : CallDrifts ρ (runCall R n) := by
  induction n with
  | zero => exact fun _ _ _ _ _ _ => Drifts.throw _
  | succ n ih =>
    intro fr fns d body args hf
    rw [runCall]
    exact Drifts.fnCall (fun os => (drifts_B ih body _ hf).1.bind fun r => Drifts.pure _) _

end


theorem libraryFns_drifts (ρ : World → World → Prop) [Course ρ] (R : Rules) : FnsDrifts ρ (if R.lib then libraryFns else []) := by
  intro p hp f hpf args
  have two : ∀ {g : Obj → Obj → M Obj} {f : List Obj → M Obj}, (∀ a b, Drifts ρ (g a b)) → fn2 g = .lib f → Drifts ρ (f args) := by
    intro g f h e
    cases e
    dsimp only
    split
    · exact h _ _
    · exact Drifts.throw _
  have one : ∀ {g : Obj → M Obj} {f : List Obj → M Obj}, (∀ a, Drifts ρ (g a)) → fn1 g = .lib f → Drifts ρ (f args) := by
    intro g f h e
    cases e
    dsimp only
    split
    · exact h _
    · exact Drifts.throw _
  cases hR : R.lib with
  | false => rw [hR] at hp; cases hp
  | true =>
    rw [hR, if_pos rfl] at hp
    unfold libraryFns at hp
    simp only [List.mem_cons, List.not_mem_nil, or_false] at hp
    rcases hp with rfl | rfl | rfl | rfl | rfl | rfl | rfl | rfl | rfl | rfl | rfl | rfl | rfl
    · exact one Drifts.absolute hpf
    · exact two Drifts.contains hpf
    · exact two Drifts.countIn hpf
    · exact one Drifts.explode hpf
    · exact two Drifts.highestN hpf
    · exact two Drifts.lowestN hpf
    · exact two Drifts.middleN hpf
    · exact two Drifts.highestOf hpf
    · exact two Drifts.lowestOf hpf
    · exact one Drifts.maximumOf hpf
    · exact one Drifts.reverse hpf
    · exact one Drifts.sort hpf
    · exact two Drifts.trueDiv hpf

/-- A program forgets no roll and remembers none twice. -/
theorem block_drifts (ρ : World → World → Prop) [Course ρ] (R : Rules) (n : ℕ) (b : Block) : Drifts ρ (runB R (runCall R n) b ⟨if R.lib then libraryFns else [], ⟨none, [], []⟩⟩) :=
  (drifts_B (drifts_call n) b _ (libraryFns_drifts ρ R)).1

end PythonDice
