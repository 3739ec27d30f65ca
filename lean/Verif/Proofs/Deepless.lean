import Verif.Model.Exec

/-!
# Calculations do not look at the current depth of functions
-/

namespace PythonDice

/-- The state with another current depth of functions. -/
def World.atDepth (w : World) (c : ℤ) : World := { w with settings := { w.settings with currDepth := c } }

/-- A computation that neither reads nor changes the current depth of functions. -/
def Deepless {α : Type} (m : M α) : Prop := ∀ (w : World) (c : ℤ), m (w.atDepth c) = ((m w).1, (m w).2.atDepth c)

namespace Deepless
variable {α β : Type}

theorem pure (x : α) : Deepless (Pure.pure x : M α) := fun _ _ => rfl

theorem throw (e : Err) : Deepless (M.throw e : M α) := fun _ _ => rfl

theorem ofSettings {f : Settings → Except Err α} (h : ∀ (st : Settings) (c : ℤ), f { st with currDepth := c } = f st) : Deepless (M.ofSettings f) := by
  intro w c
  show (f { w.settings with currDepth := c }, w.atDepth c) = (f w.settings, w.atDepth c)
  rw [h]

theorem ofLimited {f : Settings → Except Err (α × Bool)} (h : ∀ (st : Settings) (c : ℤ), f { st with currDepth := c } = f st) : Deepless (M.ofLimited f) := by
  intro w c
  unfold M.ofLimited
  have e : f (w.atDepth c).settings = f w.settings := h w.settings c
  rw [e]
  rcases f w.settings with e | ⟨x, b⟩
  · rfl
  · cases b <;> rfl

theorem modify {f : World → World} (h : ∀ w c, f (World.atDepth w c) = (f w).atDepth c) : Deepless (M.modify f) :=
  fun w c => by
    show (Except.ok (), f (w.atDepth c)) = (Except.ok (), (f w).atDepth c)
    rw [h]

theorem bind {m : M α} {f : α → M β} (hm : Deepless m) (hf : ∀ x, Deepless (f x)) : Deepless (m >>= f) := by
  intro w c
  show M.bind m f _ = ((M.bind m f w).1, (M.bind m f w).2.atDepth c)
  have h := hm w c
  unfold M.bind
  rw [h]
  rcases m w with ⟨r, w'⟩
  cases r with
  | error e => rfl
  | ok x => exact hf x w' c

theorem map {m : M α} (f : α → β) (hm : Deepless m) : Deepless (f <$> m) := by
  have e : f <$> m = m >>= fun x => Pure.pure (f x) := rfl
  rw [e]
  exact hm.bind fun x => pure _

theorem forList {f : α → M β} (hf : ∀ x, Deepless (f x)) (l : List α) : Deepless (M.forList f l) := by
  induction l with
  | nil => exact pure []
  | cons x xs ih => exact (hf x).bind fun y => ih.bind fun ys => pure _

theorem settingsBind {f : Settings → M β} (h : ∀ (st : Settings) (c : ℤ), f { st with currDepth := c } = f st) (hf : ∀ x, Deepless (f x)) :
    Deepless (M.settings >>= f) := by
  intro w c
  show f { w.settings with currDepth := c } (w.atDepth c) = ((f w.settings w).1, (f w.settings w).2.atDepth c)
  rw [h]
  exact hf _ w c

theorem castSlot (ty : Option Ty) (o : Obj) : Deepless (PythonDice.castSlot ty o) := by
  unfold PythonDice.castSlot
  split <;> first
    | exact pure _
    | exact (ofSettings (fun _ _ => rfl)).bind fun _ => pure _

theorem castCall {f : List Obj → M (Option Obj)} (hf : ∀ l, Deepless (f l)) (args : List (Option Ty × Obj)) :
    Deepless (PythonDice.castCall f args) := by
  unfold PythonDice.castCall
  split
  · exact pure _
  · refine (forList (fun a => castSlot a.1 a.2) args).bind fun slots => ?_
    split
    · exact (forList (fun c : List Obj × ℕ => (hf c.1).bind fun v => pure _) _).bind fun res => (ofLimited (fun _ _ => rfl)).bind fun r => pure _
    · exact hf _

theorem orBlank {m : M (Option Obj)} (hm : Deepless m) : Deepless (PythonDice.orBlank m) := hm.bind fun _ => pure _

theorem negObj (o : Obj) : Deepless (PythonDice.negObj o) := by
  cases o <;> first | exact pure _ | exact map _ (ofSettings (fun _ _ => rfl))

theorem blankL (op : BinOp) (s : Bool) (o : Obj) : Deepless (PythonDice.blankL op s o) := by
  unfold PythonDice.blankL
  split
  · split
    · exact pure _
    · exact negObj o
  · exact pure _

theorem numBinop (op : BinOp) (x : ℤ) (o : Obj) : Deepless (PythonDice.numBinop op x o) := by
  unfold PythonDice.numBinop
  split
  · exact map _ (ofSettings (fun _ _ => rfl))
  · split
    · exact pure _
    · exact map _ (ofSettings (fun _ _ => rfl))
  · split <;> exact map _ (ofSettings (fun _ _ => rfl))
  · exact pure _

theorem binop (op : BinOp) (a b : Obj) : Deepless (PythonDice.binop op a b) := by
  unfold PythonDice.binop
  split
  · exact numBinop _ _ _
  · split
    · exact pure _
    · exact map _ (ofSettings (fun _ _ => rfl))
  · split
    · exact pure _
    · exact map _ (ofSettings (fun _ _ => rfl))
  · exact numBinop _ _ _
  · exact map _ (ofSettings (fun _ _ => rfl))
  · exact map _ (ofSettings (fun _ _ => rfl))
  · exact map _ (ofLimited (fun _ _ => rfl))
  · exact pure _
  · exact blankL _ _ _

theorem negOp (o : Obj) : Deepless (PythonDice.negOp o) := by
  cases o <;> first | exact pure _ | exact throw _ | exact map _ (ofSettings (fun _ _ => rfl))

theorem posOp (o : Obj) : Deepless (PythonDice.posOp o) := by
  cases o <;> first | exact pure _ | exact throw _

theorem myInvert (o : Obj) : Deepless (PythonDice.myInvert o) := by
  cases o <;> first | exact pure _ | exact map _ (ofSettings (fun _ _ => rfl))

theorem invertOp (o : Obj) : Deepless (PythonDice.invertOp o) := by
  cases o <;> first | exact pure _ | exact map _ (ofSettings (fun _ _ => rfl))

theorem lenOp (o : Obj) : Deepless (PythonDice.lenOp o) := by
  cases o <;> first | exact pure _ | exact throw _

theorem truthOp (o : Obj) : Deepless (PythonDice.truthOp o) := by
  cases o <;> first | exact pure _ | exact throw _

theorem iterOp (o : Obj) : Deepless (PythonDice.iterOp o) := by
  cases o <;> first | exact pure _ | exact throw _

theorem myAnd (a b : Obj) : Deepless (PythonDice.myAnd a b) := by
  unfold PythonDice.myAnd
  split
  · exact pure _
  · exact binop _ _ _

theorem myOr (a b : Obj) : Deepless (PythonDice.myOr a b) := by
  unfold PythonDice.myOr
  split
  · exact pure _
  · exact binop _ _ _

theorem rvRmatmul (l : List ℤ) (r : RV ℤ) : Deepless (PythonDice.rvRmatmul l r) := by
  unfold PythonDice.rvRmatmul
  split
  · exact (ofLimited (fun _ _ => rfl)).bind fun _ => pure _
  · refine (castCall ?_ _).bind fun _ => pure _
    intro l
    unfold sumAtFn
    split
    · exact pure _
    · exact throw _

theorem matmul (a b : Obj) : Deepless (PythonDice.matmul a b) := by
  unfold PythonDice.matmul
  split <;> first
    | exact pure _
    | exact throw _
    | exact rvRmatmul _ _
    | exact (ofSettings (fun _ _ => rfl)).bind fun _ => pure _

theorem myMatmul (a b : Obj) : Deepless (PythonDice.myMatmul a b) := by
  unfold PythonDice.myMatmul
  split
  · split
    · exact map _ (ofSettings (fun _ _ => rfl))
    · exact pure _
  · exact matmul _ _

theorem myRange (a b : Obj) : Deepless (PythonDice.myRange a b) := by
  unfold PythonDice.myRange
  split
  · exact pure _
  · exact throw _

theorem addM (a b : RV ℤ) : Deepless (PythonDice.addM a b) := ofLimited (fun _ _ => rfl)

theorem rollNat (fuel n : ℕ) (d : RV ℤ) : Deepless (PythonDice.rollNat fuel n d) := by
  induction fuel generalizing n with
  | zero => exact throw _
  | succ fuel ih =>
    unfold PythonDice.rollNat
    split
    · exact ofSettings (fun _ _ => rfl)
    · split
      · exact pure _
      · refine bind (m := memoGet n d) (fun w d => rfl) fun r => ?_
        split
        · exact pure _
        · refine (ih _).bind fun half => (addM _ _).bind fun full => bind ?_ fun full => bind (modify fun w d => rfl) fun _ => pure _
          unfold addOdd
          split
          · exact addM _ _
          · exact pure _

theorem rollInt (n : ℤ) (d : RV ℤ) : Deepless (PythonDice.rollInt n d) := by
  unfold PythonDice.rollInt
  split
  · exact (rollNat _ _ _).bind fun _ => ofSettings (fun _ _ => rfl)
  · exact rollNat _ _ _

theorem asDie (d : Obj) : Deepless (PythonDice.asDie d) := by
  unfold PythonDice.asDie
  split
  · split
    · exact map _ (ofSettings (fun _ _ => rfl))
    · split <;> exact map _ (ofSettings (fun _ _ => rfl))
  · split
    · exact pure _
    · exact map _ (ofSettings (fun _ _ => rfl))
  · exact pure _
  · exact pure _

theorem rollRV (n d : RV ℤ) : Deepless (PythonDice.rollRV n d) := by
  unfold PythonDice.rollRV
  refine (forList (fun v => rollInt v d) _).bind fun dies => (ofLimited (fun _ _ => rfl)).bind fun r => ?_
  split
  · exact pure _
  · exact throw _

theorem roll (n d : Obj) : Deepless (PythonDice.roll n d) := by
  unfold PythonDice.roll
  split
  · exact pure _
  · exact pure _
  · refine (asDie _).bind fun x => ?_
    split
    · exact pure _
    · split
      · exact map _ (rollInt _ _)
      · exact map _ (rollInt _ _)
      · exact rollRV _ _
      · exact pure _

theorem roll1 (d : Obj) : Deepless (PythonDice.roll1 d) := roll _ _

theorem absolute (a : Obj) : Deepless (PythonDice.absolute a) :=
  orBlank (castCall (fun l => by unfold absoluteFn; split <;> first | exact pure _ | exact throw _) _)

theorem contains (a b : Obj) : Deepless (PythonDice.contains a b) :=
  orBlank (castCall (fun l => by unfold containsFn; split <;> first | exact pure _ | exact throw _) _)

theorem countIn (a b : Obj) : Deepless (PythonDice.countIn a b) :=
  orBlank (castCall (fun l => by unfold countInFn; split <;> first | exact pure _ | exact throw _) _)

theorem reverse (a : Obj) : Deepless (PythonDice.reverse a) :=
  orBlank (castCall (fun l => by unfold reverseFn; split <;> first | exact pure _ | exact throw _) _)

theorem maximumOf (a : Obj) : Deepless (PythonDice.maximumOf a) :=
  orBlank (castCall (fun l => by
    unfold maximumOfFn
    split
    · exact (reverse _).bind fun _ => (matmul _ _).bind fun _ => pure _
    · exact throw _) _)

theorem explodeHelper (depth : ℕ) (n mx d : Obj) : Deepless (PythonDice.explodeHelper depth n mx d) := by
  induction depth generalizing n mx d with
  | zero =>
    refine castCall (fun l => ?_) _
    split
    · exact pure _
    · exact throw _
  | succ k ih =>
    refine castCall (fun l => ?_) _
    split
    · split
      · exact (ih _ _ _).bind fun _ => (binop _ _ _).bind fun _ => pure _
      · exact pure _
    · exact throw _

theorem explode (d : Obj) : Deepless (PythonDice.explode d) :=
  orBlank (castCall (fun l => by
    unfold explodeFn
    split
    · exact settingsBind (fun _ _ => rfl) fun _ => (maximumOf _).bind fun _ => explodeHelper _ _ _ _
    · exact throw _) _)

theorem highestN (a b : Obj) : Deepless (PythonDice.highestN a b) :=
  orBlank (castCall (fun l => by unfold highestNFn; split <;> first | exact map _ (matmul _ _) | exact throw _) _)

theorem lowestN (a b : Obj) : Deepless (PythonDice.lowestN a b) :=
  orBlank (castCall (fun l => by unfold lowestNFn; split <;> first | exact map _ (matmul _ _) | exact throw _) _)

theorem middleN (a b : Obj) : Deepless (PythonDice.middleN a b) :=
  orBlank (castCall (fun l => by
    unfold middleNFn
    split
    · dsimp only
      split
      · exact pure _
      · split <;> exact map _ (matmul _ _)
    · exact throw _) _)

theorem highestOf (a b : Obj) : Deepless (PythonDice.highestOf a b) :=
  orBlank (castCall (fun l => by unfold highestOfFn; split <;> first | exact pure _ | exact throw _) _)

theorem lowestOf (a b : Obj) : Deepless (PythonDice.lowestOf a b) :=
  orBlank (castCall (fun l => by unfold lowestOfFn; split <;> first | exact pure _ | exact throw _) _)

theorem sort (a : Obj) : Deepless (PythonDice.sort a) :=
  orBlank (castCall (fun l => by unfold sortFn; split <;> first | exact pure _ | exact throw _) _)

theorem trueDiv (a b : Obj) : Deepless (PythonDice.trueDiv a b) := binop _ _ _

end Deepless

end PythonDice
