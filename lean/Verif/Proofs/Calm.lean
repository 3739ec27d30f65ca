import Verif.Proofs.Quiet
import Verif.Proofs.Roll

/-!
# The library changes neither settings nor outputs, and warnings stay
-/

namespace PythonDice

/-- A computation that leaves a part of the state as it is. -/
def Leaves {α γ : Type} (φ : World → γ) (m : M α) : Prop := ∀ w : World, φ (m w).2 = φ w

theorem Leaves.bind {α β γ : Type} {φ : World → γ} {m : M α} {f : α → M β} (hm : Leaves φ m) (hf : ∀ x, Leaves φ (f x)) : Leaves φ (m >>= f) := by
  intro w
  rw [M.bind_apply]
  have h := hm w
  rcases hr : m w with ⟨r, w'⟩
  rw [hr] at h
  cases r with
  | error e => exact h
  | ok x => exact (hf x w').trans h

theorem leaves_addM (a b : RV ℤ) : Leaves World.outs (addM a b) := by
  intro w
  unfold addM M.ofLimited
  simp only
  rcases RV.binop w.settings .add a b with e | ⟨x, _ | _⟩ <;> rfl

theorem leaves_rollNat (fuel n : ℕ) (d : RV ℤ) : Leaves World.outs (rollNat fuel n d) := by
  induction fuel generalizing n with
  | zero => exact fun w => rfl
  | succ fuel ih =>
    unfold rollNat
    split
    · exact fun w => rfl
    · split
      · exact fun w => rfl
      · refine Leaves.bind (m := memoGet n d) (fun w => rfl) fun r => ?_
        split
        · exact fun w => rfl
        · refine (ih _).bind fun half => (leaves_addM _ _).bind fun full => Leaves.bind ?_ fun full =>
            Leaves.bind (m := M.modify _) (fun w => rfl) fun _ => fun w => rfl
          unfold addOdd
          split
          · exact leaves_addM _ _
          · exact fun w => rfl

/-- A computation that changes neither settings nor outputs, and leads from possible states to possible states; warnings stay. -/
def Calm {α : Type} (m : M α) : Prop :=
  ∀ w : World, Reachable w → Reachable (m w).2 ∧ w.warns ≤ (m w).2.warns ∧ (m w).2.settings = w.settings ∧ (m w).2.outs = w.outs

namespace Calm
variable {α β : Type}

theorem triple {I : Settings → Prop} {m : M α} (h : Calm m) : Triple I m fun _ => True := by
  intro w hw hi
  obtain ⟨h1, h2, h3, _⟩ := h w hw
  exact ⟨h1, h2, fun x _ => ⟨by rw [h3]; exact hi, fun _ => trivial⟩⟩

theorem same {m : M α} (h : ∀ w, (m w).2 = w) : Calm m := by
  intro w hw
  rw [h w]
  exact ⟨hw, le_refl _, rfl, rfl⟩

theorem pure (x : α) : Calm (Pure.pure x : M α) := same fun _ => rfl

theorem throw (e : Err) : Calm (M.throw e : M α) := same fun _ => rfl

theorem settings : Calm M.settings := same fun _ => rfl

theorem ofSettings (f : Settings → Except Err α) : Calm (M.ofSettings f) := same fun _ => rfl

theorem ofLimited (f : Settings → Except Err (α × Bool)) : Calm (M.ofLimited f) := by
  intro w hw
  unfold M.ofLimited
  rcases f w.settings with e | ⟨x, _ | _⟩
  · exact ⟨hw, le_refl _, rfl, rfl⟩
  · exact ⟨hw, le_refl _, rfl, rfl⟩
  · exact ⟨hw.warn, Nat.le_succ _, rfl, rfl⟩

theorem bind {m : M α} {f : α → M β} (hm : Calm m) (hf : ∀ x, Calm (f x)) : Calm (m >>= f) := by
  intro w hw
  rw [M.bind_apply]
  have h := hm w hw
  rcases hr : m w with ⟨r, w'⟩
  rw [hr] at h
  cases r with
  | error e => exact h
  | ok x =>
    obtain ⟨h1, h2, h3, h4⟩ := h
    obtain ⟨g1, g2, g3, g4⟩ := hf x w' h1
    exact ⟨g1, h2.trans g2, g3.trans h3, g4.trans h4⟩

theorem map {m : M α} (f : α → β) (hm : Calm m) : Calm (f <$> m) := by
  have e : f <$> m = m >>= fun x => Pure.pure (f x) := rfl
  rw [e]
  exact hm.bind fun x => pure _

theorem forList {f : α → M β} (hf : ∀ x, Calm (f x)) (l : List α) : Calm (M.forList f l) := by
  induction l with
  | nil => exact pure []
  | cons x xs ih => exact (hf x).bind fun y => ih.bind fun ys => pure _

theorem castSlot (ty : Option Ty) (o : Obj) : Calm (PythonDice.castSlot ty o) := by
  unfold PythonDice.castSlot
  split <;> first
    | exact pure _
    | exact (ofSettings _).bind fun _ => pure _

theorem castCall {f : List Obj → M (Option Obj)} (hf : ∀ l, Calm (f l)) (args : List (Option Ty × Obj)) :
    Calm (PythonDice.castCall f args) := by
  unfold PythonDice.castCall
  split
  · exact pure _
  · refine (forList (fun a => castSlot a.1 a.2) args).bind fun slots => ?_
    split
    · exact (forList (fun c : List Obj × ℕ => (hf c.1).bind fun v => pure _) _).bind fun res => (ofLimited _).bind fun r => pure _
    · exact hf _

theorem orBlank {m : M (Option Obj)} (hm : Calm m) : Calm (PythonDice.orBlank m) := hm.bind fun _ => pure _

theorem negObj (o : Obj) : Calm (PythonDice.negObj o) := by
  cases o <;> first | exact pure _ | exact map _ (ofSettings _)

theorem blankL (op : BinOp) (s : Bool) (o : Obj) : Calm (PythonDice.blankL op s o) := by
  unfold PythonDice.blankL
  split
  · split
    · exact pure _
    · exact negObj o
  · exact pure _

theorem numBinop (op : BinOp) (x : ℤ) (o : Obj) : Calm (PythonDice.numBinop op x o) := by
  unfold PythonDice.numBinop
  split
  · exact map _ (ofSettings _)
  · split
    · exact pure _
    · exact map _ (ofSettings _)
  · split <;> exact map _ (ofSettings _)
  · exact pure _

theorem binop (op : BinOp) (a b : Obj) : Calm (PythonDice.binop op a b) := by
  unfold PythonDice.binop
  split
  · exact numBinop _ _ _
  · split
    · exact pure _
    · exact map _ (ofSettings _)
  · split
    · exact pure _
    · exact map _ (ofSettings _)
  · exact numBinop _ _ _
  · exact map _ (ofSettings _)
  · exact map _ (ofSettings _)
  · exact map _ (ofLimited _)
  · exact pure _
  · exact blankL _ _ _

theorem negOp (o : Obj) : Calm (PythonDice.negOp o) := by
  cases o <;> first | exact pure _ | exact throw _ | exact map _ (ofSettings _)

theorem posOp (o : Obj) : Calm (PythonDice.posOp o) := by
  cases o <;> first | exact pure _ | exact throw _

theorem myInvert (o : Obj) : Calm (PythonDice.myInvert o) := by
  cases o <;> first | exact pure _ | exact map _ (ofSettings _)

theorem invertOp (o : Obj) : Calm (PythonDice.invertOp o) := by
  cases o <;> first | exact pure _ | exact map _ (ofSettings _)

theorem lenOp (o : Obj) : Calm (PythonDice.lenOp o) := by
  cases o <;> first | exact pure _ | exact throw _

theorem truthOp (o : Obj) : Calm (PythonDice.truthOp o) := by
  cases o <;> first | exact pure _ | exact throw _

theorem iterOp (o : Obj) : Calm (PythonDice.iterOp o) := by
  cases o <;> first | exact pure _ | exact throw _

theorem myAnd (a b : Obj) : Calm (PythonDice.myAnd a b) := by
  unfold PythonDice.myAnd
  split
  · exact pure _
  · exact binop _ _ _

theorem myOr (a b : Obj) : Calm (PythonDice.myOr a b) := by
  unfold PythonDice.myOr
  split
  · exact pure _
  · exact binop _ _ _

theorem rvRmatmul (l : List ℤ) (r : RV ℤ) : Calm (PythonDice.rvRmatmul l r) := by
  unfold PythonDice.rvRmatmul
  split
  · exact (ofLimited _).bind fun _ => pure _
  · refine (castCall ?_ _).bind fun _ => pure _
    intro l
    unfold sumAtFn
    split
    · exact pure _
    · exact throw _

theorem matmul (a b : Obj) : Calm (PythonDice.matmul a b) := by
  unfold PythonDice.matmul
  split <;> first
    | exact pure _
    | exact throw _
    | exact rvRmatmul _ _
    | exact (ofSettings _).bind fun _ => pure _

theorem myMatmul (a b : Obj) : Calm (PythonDice.myMatmul a b) := by
  unfold PythonDice.myMatmul
  split
  · split
    · exact map _ (ofSettings _)
    · exact pure _
  · exact matmul _ _

theorem myRange (a b : Obj) : Calm (PythonDice.myRange a b) := by
  unfold PythonDice.myRange
  split
  · exact pure _
  · exact throw _

theorem rollInt (n : ℤ) (d : RV ℤ) : Calm (PythonDice.rollInt n d) := by
  intro w hw
  have h := rollInt_spec n d w hw.memoOk
  refine ⟨hw.roll n d, h.warns, h.settings, ?_⟩
  have : Leaves World.outs (PythonDice.rollInt n d) := by
    unfold PythonDice.rollInt
    split
    · exact (leaves_rollNat _ _ _).bind fun _ _ => rfl
    · exact leaves_rollNat _ _ _
  exact this w

theorem asDie (d : Obj) : Calm (PythonDice.asDie d) := by
  unfold PythonDice.asDie
  split
  · split
    · exact map _ (ofSettings _)
    · split <;> exact map _ (ofSettings _)
  · split
    · exact pure _
    · exact map _ (ofSettings _)
  · exact pure _
  · exact pure _

theorem rollRV (n d : RV ℤ) : Calm (PythonDice.rollRV n d) := by
  unfold PythonDice.rollRV
  refine (forList (fun v => rollInt v d) _).bind fun dies => (ofLimited _).bind fun r => ?_
  split
  · exact pure _
  · exact throw _

theorem roll (n d : Obj) : Calm (PythonDice.roll n d) := by
  unfold PythonDice.roll
  split
  · exact pure _
  · exact pure _
  · refine (asDie _).bind fun x => ?_
    split
    · exact pure _
    · split
      · exact map _ (rollInt _ _)
      · exact map _ (rollInt _ _)
      · exact rollRV _ _
      · exact pure _

theorem roll1 (d : Obj) : Calm (PythonDice.roll1 d) := roll _ _

theorem absolute (a : Obj) : Calm (PythonDice.absolute a) :=
  orBlank (castCall (fun l => by unfold absoluteFn; split <;> first | exact pure _ | exact throw _) _)

theorem contains (a b : Obj) : Calm (PythonDice.contains a b) :=
  orBlank (castCall (fun l => by unfold containsFn; split <;> first | exact pure _ | exact throw _) _)

theorem countIn (a b : Obj) : Calm (PythonDice.countIn a b) :=
  orBlank (castCall (fun l => by unfold countInFn; split <;> first | exact pure _ | exact throw _) _)

theorem reverse (a : Obj) : Calm (PythonDice.reverse a) :=
  orBlank (castCall (fun l => by unfold reverseFn; split <;> first | exact pure _ | exact throw _) _)

theorem maximumOf (a : Obj) : Calm (PythonDice.maximumOf a) :=
  orBlank (castCall (fun l => by
    unfold maximumOfFn
    split
    · exact (reverse _).bind fun _ => (matmul _ _).bind fun _ => pure _
    · exact throw _) _)

theorem explodeHelper (depth : ℕ) (n mx d : Obj) : Calm (PythonDice.explodeHelper depth n mx d) := by
  induction depth generalizing n mx d with
  | zero =>
    refine castCall (fun l => ?_) _
    split
    · exact pure _
    · exact throw _
  | succ k ih =>
    refine castCall (fun l => ?_) _
    split
    · split
      · exact (ih _ _ _).bind fun _ => (binop _ _ _).bind fun _ => pure _
      · exact pure _
    · exact throw _

theorem explode (d : Obj) : Calm (PythonDice.explode d) :=
  orBlank (castCall (fun l => by
    unfold explodeFn
    split
    · exact settings.bind fun _ => (maximumOf _).bind fun _ => explodeHelper _ _ _ _
    · exact throw _) _)

theorem highestN (a b : Obj) : Calm (PythonDice.highestN a b) :=
  orBlank (castCall (fun l => by unfold highestNFn; split <;> first | exact map _ (matmul _ _) | exact throw _) _)

theorem lowestN (a b : Obj) : Calm (PythonDice.lowestN a b) :=
  orBlank (castCall (fun l => by unfold lowestNFn; split <;> first | exact map _ (matmul _ _) | exact throw _) _)

theorem middleN (a b : Obj) : Calm (PythonDice.middleN a b) :=
  orBlank (castCall (fun l => by
    unfold middleNFn
    split
    · dsimp only
      split
      · exact pure _
      · split <;> exact map _ (matmul _ _)
    · exact throw _) _)

theorem highestOf (a b : Obj) : Calm (PythonDice.highestOf a b) :=
  orBlank (castCall (fun l => by unfold highestOfFn; split <;> first | exact pure _ | exact throw _) _)

theorem lowestOf (a b : Obj) : Calm (PythonDice.lowestOf a b) :=
  orBlank (castCall (fun l => by unfold lowestOfFn; split <;> first | exact pure _ | exact throw _) _)

theorem sort (a : Obj) : Calm (PythonDice.sort a) :=
  orBlank (castCall (fun l => by unfold sortFn; split <;> first | exact pure _ | exact throw _) _)

theorem trueDiv (a b : Obj) : Calm (PythonDice.trueDiv a b) := binop _ _ _

end Calm

end PythonDice
