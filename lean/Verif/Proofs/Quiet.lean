import Verif.Model.Exec

/-!
# The library does not change the settings
-/

namespace PythonDice

/-- A computation that leaves the settings as they are. -/
def KeepsSettings {α : Type} (m : M α) : Prop := ∀ w : World, (m w).2.settings = w.settings

namespace KeepsSettings
variable {α β : Type}

theorem pure (x : α) : KeepsSettings (Pure.pure x : M α) := fun _ => rfl

theorem throw (e : Err) : KeepsSettings (M.throw e : M α) := fun _ => rfl

theorem settings : KeepsSettings M.settings := fun _ => rfl

theorem ofSettings (f : Settings → Except Err α) : KeepsSettings (M.ofSettings f) := fun _ => rfl

theorem ofLimited (f : Settings → Except Err (α × Bool)) : KeepsSettings (M.ofLimited f) := by
  intro w
  unfold M.ofLimited
  rcases f w.settings with e | ⟨x, b⟩
  · rfl
  · cases b <;> rfl

theorem modify {f : World → World} (h : ∀ w, (f w).settings = w.settings) : KeepsSettings (M.modify f) := fun w => h w

theorem bind {m : M α} {f : α → M β} (hm : KeepsSettings m) (hf : ∀ x, KeepsSettings (f x)) : KeepsSettings (m >>= f) := by
  intro w
  show (M.bind m f w).2.settings = _
  have h := hm w
  unfold M.bind
  rcases hr : m w with ⟨r, w'⟩
  rw [hr] at h
  cases r with
  | error e => exact h
  | ok x => exact (hf x w').trans h

theorem map {m : M α} (f : α → β) (hm : KeepsSettings m) : KeepsSettings (f <$> m) := by
  have e : f <$> m = m >>= fun x => Pure.pure (f x) := rfl
  rw [e]
  exact hm.bind fun x => pure _

theorem forList {f : α → M β} (hf : ∀ x, KeepsSettings (f x)) (l : List α) : KeepsSettings (M.forList f l) := by
  induction l with
  | nil => exact pure []
  | cons x xs ih => exact (hf x).bind fun y => ih.bind fun ys => pure _

theorem castSlot (ty : Option Ty) (o : Obj) : KeepsSettings (PythonDice.castSlot ty o) := by
  unfold PythonDice.castSlot
  split <;> first
    | exact pure _
    | exact (ofSettings _).bind fun _ => pure _

theorem castCall {f : List Obj → M (Option Obj)} (hf : ∀ l, KeepsSettings (f l)) (args : List (Option Ty × Obj)) :
    KeepsSettings (PythonDice.castCall f args) := by
  unfold PythonDice.castCall
  split
  · exact pure _
  · refine (forList (fun a => castSlot a.1 a.2) args).bind fun slots => ?_
    split
    · exact (forList (fun c : List Obj × ℕ => (hf c.1).bind fun v => pure _) _).bind fun res => (ofLimited _).bind fun r => pure _
    · exact hf _

theorem orBlank {m : M (Option Obj)} (hm : KeepsSettings m) : KeepsSettings (PythonDice.orBlank m) := hm.bind fun _ => pure _

theorem negObj (o : Obj) : KeepsSettings (PythonDice.negObj o) := by
  cases o <;> first | exact pure _ | exact map _ (ofSettings _)

theorem blankL (op : BinOp) (s : Bool) (o : Obj) : KeepsSettings (PythonDice.blankL op s o) := by
  unfold PythonDice.blankL
  split
  · split
    · exact pure _
    · exact negObj o
  · exact pure _

theorem numBinop (op : BinOp) (x : ℤ) (o : Obj) : KeepsSettings (PythonDice.numBinop op x o) := by
  unfold PythonDice.numBinop
  split
  · exact map _ (ofSettings _)
  · split
    · exact pure _
    · exact map _ (ofSettings _)
  · split <;> exact map _ (ofSettings _)
  · exact pure _

theorem binop (op : BinOp) (a b : Obj) : KeepsSettings (PythonDice.binop op a b) := by
  unfold PythonDice.binop
  split
  · exact numBinop _ _ _
  · split
    · exact pure _
    · exact map _ (ofSettings _)
  · split
    · exact pure _
    · exact map _ (ofSettings _)
  · exact numBinop _ _ _
  · exact map _ (ofSettings _)
  · exact map _ (ofSettings _)
  · exact map _ (ofLimited _)
  · exact pure _
  · exact blankL _ _ _

theorem negOp (o : Obj) : KeepsSettings (PythonDice.negOp o) := by
  cases o <;> first | exact pure _ | exact throw _ | exact map _ (ofSettings _)

theorem posOp (o : Obj) : KeepsSettings (PythonDice.posOp o) := by
  cases o <;> first | exact pure _ | exact throw _

theorem myInvert (o : Obj) : KeepsSettings (PythonDice.myInvert o) := by
  cases o <;> first | exact pure _ | exact map _ (ofSettings _)

theorem invertOp (o : Obj) : KeepsSettings (PythonDice.invertOp o) := by
  cases o <;> first | exact pure _ | exact map _ (ofSettings _)

theorem lenOp (o : Obj) : KeepsSettings (PythonDice.lenOp o) := by
  cases o <;> first | exact pure _ | exact throw _

theorem truthOp (o : Obj) : KeepsSettings (PythonDice.truthOp o) := by
  cases o <;> first | exact pure _ | exact throw _

theorem iterOp (o : Obj) : KeepsSettings (PythonDice.iterOp o) := by
  cases o <;> first | exact pure _ | exact throw _

theorem myAnd (a b : Obj) : KeepsSettings (PythonDice.myAnd a b) := by
  unfold PythonDice.myAnd
  split
  · exact pure _
  · exact binop _ _ _

theorem myOr (a b : Obj) : KeepsSettings (PythonDice.myOr a b) := by
  unfold PythonDice.myOr
  split
  · exact pure _
  · exact binop _ _ _

theorem rvRmatmul (l : List ℤ) (r : RV ℤ) : KeepsSettings (PythonDice.rvRmatmul l r) := by
  unfold PythonDice.rvRmatmul
  split
  · exact (ofLimited _).bind fun _ => pure _
  · refine (castCall ?_ _).bind fun _ => pure _
    intro l
    unfold sumAtFn
    split
    · exact pure _
    · exact throw _

theorem matmul (a b : Obj) : KeepsSettings (PythonDice.matmul a b) := by
  unfold PythonDice.matmul
  split <;> first
    | exact pure _
    | exact throw _
    | exact rvRmatmul _ _
    | exact (ofSettings _).bind fun _ => pure _

theorem myMatmul (a b : Obj) : KeepsSettings (PythonDice.myMatmul a b) := by
  unfold PythonDice.myMatmul
  split
  · split
    · exact map _ (ofSettings _)
    · exact pure _
  · exact matmul _ _

theorem myRange (a b : Obj) : KeepsSettings (PythonDice.myRange a b) := by
  unfold PythonDice.myRange
  split
  · exact pure _
  · exact throw _

theorem addM (a b : RV ℤ) : KeepsSettings (PythonDice.addM a b) := ofLimited _

theorem rollNat (fuel n : ℕ) (d : RV ℤ) : KeepsSettings (PythonDice.rollNat fuel n d) := by
  induction fuel generalizing n with
  | zero => exact throw _
  | succ fuel ih =>
    unfold PythonDice.rollNat
    split
    · exact ofSettings _
    · split
      · exact pure _
      · refine bind (m := memoGet n d) (fun w => rfl) fun r => ?_
        split
        · exact pure _
        · refine (ih _).bind fun half => (addM _ _).bind fun full => bind ?_ fun full => bind (modify fun w => rfl) fun _ => pure _
          unfold addOdd
          split
          · exact addM _ _
          · exact pure _

theorem rollInt (n : ℤ) (d : RV ℤ) : KeepsSettings (PythonDice.rollInt n d) := by
  unfold PythonDice.rollInt
  split
  · exact (rollNat _ _ _).bind fun _ => ofSettings _
  · exact rollNat _ _ _

theorem asDie (d : Obj) : KeepsSettings (PythonDice.asDie d) := by
  unfold PythonDice.asDie
  split
  · split
    · exact map _ (ofSettings _)
    · split <;> exact map _ (ofSettings _)
  · split
    · exact pure _
    · exact map _ (ofSettings _)
  · exact pure _
  · exact pure _

theorem rollRV (n d : RV ℤ) : KeepsSettings (PythonDice.rollRV n d) := by
  unfold PythonDice.rollRV
  refine (forList (fun v => rollInt v d) _).bind fun dies => (ofLimited _).bind fun r => ?_
  split
  · exact pure _
  · exact throw _

theorem roll (n d : Obj) : KeepsSettings (PythonDice.roll n d) := by
  unfold PythonDice.roll
  split
  · exact pure _
  · exact pure _
  · refine (asDie _).bind fun x => ?_
    split
    · exact pure _
    · split
      · exact map _ (rollInt _ _)
      · exact map _ (rollInt _ _)
      · exact rollRV _ _
      · exact pure _

theorem roll1 (d : Obj) : KeepsSettings (PythonDice.roll1 d) := roll _ _

theorem emitOutput (o : Obj) (n : Option PyText) : KeepsSettings (PythonDice.emitOutput o n) := modify fun _ => rfl

theorem absolute (a : Obj) : KeepsSettings (PythonDice.absolute a) :=
  orBlank (castCall (fun l => by unfold absoluteFn; split <;> first | exact pure _ | exact throw _) _)

theorem contains (a b : Obj) : KeepsSettings (PythonDice.contains a b) :=
  orBlank (castCall (fun l => by unfold containsFn; split <;> first | exact pure _ | exact throw _) _)

theorem countIn (a b : Obj) : KeepsSettings (PythonDice.countIn a b) :=
  orBlank (castCall (fun l => by unfold countInFn; split <;> first | exact pure _ | exact throw _) _)

theorem reverse (a : Obj) : KeepsSettings (PythonDice.reverse a) :=
  orBlank (castCall (fun l => by unfold reverseFn; split <;> first | exact pure _ | exact throw _) _)

theorem maximumOf (a : Obj) : KeepsSettings (PythonDice.maximumOf a) :=
  orBlank (castCall (fun l => by
    unfold maximumOfFn
    split
    · exact (reverse _).bind fun _ => (matmul _ _).bind fun _ => pure _
    · exact throw _) _)

theorem explodeHelper (depth : ℕ) (n mx d : Obj) : KeepsSettings (PythonDice.explodeHelper depth n mx d) := by
  induction depth generalizing n mx d with
  | zero =>
    refine castCall (fun l => ?_) _
    split
    · exact pure _
    · exact throw _
  | succ k ih =>
    refine castCall (fun l => ?_) _
    split
    · split
      · exact (ih _ _ _).bind fun _ => (binop _ _ _).bind fun _ => pure _
      · exact pure _
    · exact throw _

theorem explode (d : Obj) : KeepsSettings (PythonDice.explode d) :=
  orBlank (castCall (fun l => by
    unfold explodeFn
    split
    · exact settings.bind fun _ => (maximumOf _).bind fun _ => explodeHelper _ _ _ _
    · exact throw _) _)

theorem highestN (a b : Obj) : KeepsSettings (PythonDice.highestN a b) :=
  orBlank (castCall (fun l => by unfold highestNFn; split <;> first | exact map _ (matmul _ _) | exact throw _) _)

theorem lowestN (a b : Obj) : KeepsSettings (PythonDice.lowestN a b) :=
  orBlank (castCall (fun l => by unfold lowestNFn; split <;> first | exact map _ (matmul _ _) | exact throw _) _)

theorem middleN (a b : Obj) : KeepsSettings (PythonDice.middleN a b) :=
  orBlank (castCall (fun l => by
    unfold middleNFn
    split
    · dsimp only
      split
      · exact pure _
      · split <;> exact map _ (matmul _ _)
    · exact throw _) _)

theorem highestOf (a b : Obj) : KeepsSettings (PythonDice.highestOf a b) :=
  orBlank (castCall (fun l => by unfold highestOfFn; split <;> first | exact pure _ | exact throw _) _)

theorem lowestOf (a b : Obj) : KeepsSettings (PythonDice.lowestOf a b) :=
  orBlank (castCall (fun l => by unfold lowestOfFn; split <;> first | exact pure _ | exact throw _) _)

theorem sort (a : Obj) : KeepsSettings (PythonDice.sort a) :=
  orBlank (castCall (fun l => by unfold sortFn; split <;> first | exact pure _ | exact throw _) _)

theorem trueDiv (a b : Obj) : KeepsSettings (PythonDice.trueDiv a b) := binop _ _ _

end KeepsSettings

end PythonDice
