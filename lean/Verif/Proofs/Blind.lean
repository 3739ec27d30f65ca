import Verif.Model.Exec

/-!
# The library does not look at the dictionaries of compiled programs
-/

namespace PythonDice

/-- The dictionaries that hold variables. -/
abbrev Dicts := List (List (List Char × Obj))

/-- The state with other dictionaries. -/
def World.withDicts (w : World) (d : Dicts) : World := { w with dicts := d }

/-- A computation that neither reads nor changes the dictionaries. -/
def Blind {α : Type} (m : M α) : Prop := ∀ (w : World) (d : Dicts), m (w.withDicts d) = ((m w).1, (m w).2.withDicts d)

namespace Blind
variable {α β : Type}

theorem pure (x : α) : Blind (Pure.pure x : M α) := fun _ _ => rfl

theorem throw (e : Err) : Blind (M.throw e : M α) := fun _ _ => rfl

theorem settings : Blind M.settings := fun _ _ => rfl

theorem ofSettings (f : Settings → Except Err α) : Blind (M.ofSettings f) := fun _ _ => rfl

theorem ofLimited (f : Settings → Except Err (α × Bool)) : Blind (M.ofLimited f) := by
  intro w d
  unfold M.ofLimited
  have e : (w.withDicts d).settings = w.settings := rfl
  rw [e]
  rcases f w.settings with e | ⟨x, b⟩
  · rfl
  · cases b <;> rfl

theorem modify {f : World → World} (h : ∀ w d, f (World.withDicts w d) = (f w).withDicts d) : Blind (M.modify f) :=
  fun w d => by
    show (Except.ok (), f (w.withDicts d)) = (Except.ok (), (f w).withDicts d)
    rw [h]

theorem bind {m : M α} {f : α → M β} (hm : Blind m) (hf : ∀ x, Blind (f x)) : Blind (m >>= f) := by
  intro w d
  show M.bind m f _ = ((M.bind m f w).1, (M.bind m f w).2.withDicts d)
  have h := hm w d
  unfold M.bind
  rw [h]
  rcases m w with ⟨r, w'⟩
  cases r with
  | error e => rfl
  | ok x => exact hf x w' d

theorem map {m : M α} (f : α → β) (hm : Blind m) : Blind (f <$> m) := by
  have e : f <$> m = m >>= fun x => Pure.pure (f x) := rfl
  rw [e]
  exact hm.bind fun x => pure _

theorem forList {f : α → M β} (hf : ∀ x, Blind (f x)) (l : List α) : Blind (M.forList f l) := by
  induction l with
  | nil => exact pure []
  | cons x xs ih => exact (hf x).bind fun y => ih.bind fun ys => pure _

theorem castSlot (ty : Option Ty) (o : Obj) : Blind (PythonDice.castSlot ty o) := by
  unfold PythonDice.castSlot
  split <;> first
    | exact pure _
    | exact (ofSettings _).bind fun _ => pure _

theorem castCall {f : List Obj → M (Option Obj)} (hf : ∀ l, Blind (f l)) (args : List (Option Ty × Obj)) :
    Blind (PythonDice.castCall f args) := by
  unfold PythonDice.castCall
  split
  · exact pure _
  · refine (forList (fun a => castSlot a.1 a.2) args).bind fun slots => ?_
    split
    · exact (forList (fun c : List Obj × ℕ => (hf c.1).bind fun v => pure _) _).bind fun res => (ofLimited _).bind fun r => pure _
    · exact hf _

theorem orBlank {m : M (Option Obj)} (hm : Blind m) : Blind (PythonDice.orBlank m) := hm.bind fun _ => pure _

theorem negObj (o : Obj) : Blind (PythonDice.negObj o) := by
  cases o <;> first | exact pure _ | exact map _ (ofSettings _)

theorem blankL (op : BinOp) (s : Bool) (o : Obj) : Blind (PythonDice.blankL op s o) := by
  unfold PythonDice.blankL
  split
  · split
    · exact pure _
    · exact negObj o
  · exact pure _

theorem numBinop (op : BinOp) (x : ℤ) (o : Obj) : Blind (PythonDice.numBinop op x o) := by
  unfold PythonDice.numBinop
  split
  · exact map _ (ofSettings _)
  · split
    · exact pure _
    · exact map _ (ofSettings _)
  · split <;> exact map _ (ofSettings _)
  · exact pure _

theorem binop (op : BinOp) (a b : Obj) : Blind (PythonDice.binop op a b) := by
  unfold PythonDice.binop
  split
  · exact numBinop _ _ _
  · split
    · exact pure _
    · exact map _ (ofSettings _)
  · split
    · exact pure _
    · exact map _ (ofSettings _)
  · exact numBinop _ _ _
  · exact map _ (ofSettings _)
  · exact map _ (ofSettings _)
  · exact map _ (ofLimited _)
  · exact pure _
  · exact blankL _ _ _

theorem negOp (o : Obj) : Blind (PythonDice.negOp o) := by
  cases o <;> first | exact pure _ | exact throw _ | exact map _ (ofSettings _)

theorem posOp (o : Obj) : Blind (PythonDice.posOp o) := by
  cases o <;> first | exact pure _ | exact throw _

theorem myInvert (o : Obj) : Blind (PythonDice.myInvert o) := by
  cases o <;> first | exact pure _ | exact map _ (ofSettings _)

theorem invertOp (o : Obj) : Blind (PythonDice.invertOp o) := by
  cases o <;> first | exact pure _ | exact map _ (ofSettings _)

theorem lenOp (o : Obj) : Blind (PythonDice.lenOp o) := by
  cases o <;> first | exact pure _ | exact throw _

theorem truthOp (o : Obj) : Blind (PythonDice.truthOp o) := by
  cases o <;> first | exact pure _ | exact throw _

theorem iterOp (o : Obj) : Blind (PythonDice.iterOp o) := by
  cases o <;> first | exact pure _ | exact throw _

theorem myAnd (a b : Obj) : Blind (PythonDice.myAnd a b) := by
  unfold PythonDice.myAnd
  split
  · exact pure _
  · exact binop _ _ _

theorem myOr (a b : Obj) : Blind (PythonDice.myOr a b) := by
  unfold PythonDice.myOr
  split
  · exact pure _
  · exact binop _ _ _

theorem rvRmatmul (l : List ℤ) (r : RV ℤ) : Blind (PythonDice.rvRmatmul l r) := by
  unfold PythonDice.rvRmatmul
  split
  · exact (ofLimited _).bind fun _ => pure _
  · refine (castCall ?_ _).bind fun _ => pure _
    intro l
    unfold sumAtFn
    split
    · exact pure _
    · exact throw _

theorem matmul (a b : Obj) : Blind (PythonDice.matmul a b) := by
  unfold PythonDice.matmul
  split <;> first
    | exact pure _
    | exact throw _
    | exact rvRmatmul _ _
    | exact (ofSettings _).bind fun _ => pure _

theorem myMatmul (a b : Obj) : Blind (PythonDice.myMatmul a b) := by
  unfold PythonDice.myMatmul
  split
  · split
    · exact map _ (ofSettings _)
    · exact pure _
  · exact matmul _ _

theorem myRange (a b : Obj) : Blind (PythonDice.myRange a b) := by
  unfold PythonDice.myRange
  split
  · exact pure _
  · exact throw _

theorem addM (a b : RV ℤ) : Blind (PythonDice.addM a b) := ofLimited _

theorem rollNat (fuel n : ℕ) (d : RV ℤ) : Blind (PythonDice.rollNat fuel n d) := by
  induction fuel generalizing n with
  | zero => exact throw _
  | succ fuel ih =>
    unfold PythonDice.rollNat
    split
    · exact ofSettings _
    · split
      · exact pure _
      · refine bind (m := memoGet n d) (fun w d => rfl) fun r => ?_
        split
        · exact pure _
        · refine (ih _).bind fun half => (addM _ _).bind fun full => bind ?_ fun full => bind (modify fun w d => rfl) fun _ => pure _
          unfold addOdd
          split
          · exact addM _ _
          · exact pure _

theorem rollInt (n : ℤ) (d : RV ℤ) : Blind (PythonDice.rollInt n d) := by
  unfold PythonDice.rollInt
  split
  · exact (rollNat _ _ _).bind fun _ => ofSettings _
  · exact rollNat _ _ _

theorem asDie (d : Obj) : Blind (PythonDice.asDie d) := by
  unfold PythonDice.asDie
  split
  · split
    · exact map _ (ofSettings _)
    · split <;> exact map _ (ofSettings _)
  · split
    · exact pure _
    · exact map _ (ofSettings _)
  · exact pure _
  · exact pure _

theorem rollRV (n d : RV ℤ) : Blind (PythonDice.rollRV n d) := by
  unfold PythonDice.rollRV
  refine (forList (fun v => rollInt v d) _).bind fun dies => (ofLimited _).bind fun r => ?_
  split
  · exact pure _
  · exact throw _

theorem roll (n d : Obj) : Blind (PythonDice.roll n d) := by
  unfold PythonDice.roll
  split
  · exact pure _
  · exact pure _
  · refine (asDie _).bind fun x => ?_
    split
    · exact pure _
    · split
      · exact map _ (rollInt _ _)
      · exact map _ (rollInt _ _)
      · exact rollRV _ _
      · exact pure _

theorem roll1 (d : Obj) : Blind (PythonDice.roll1 d) := roll _ _

theorem emitOutput (o : Obj) (n : Option PyText) : Blind (PythonDice.emitOutput o n) := modify fun _ _ => rfl

theorem setSetting (n : List Char) (v : PyAny) : Blind (PythonDice.setSetting n v) := by
  intro w d
  unfold PythonDice.setSetting
  have e : (w.withDicts d).settings = w.settings := rfl
  rw [e]
  split
  · rfl
  · split <;> rfl

theorem settingsSetObj (n : PyText) (o : Obj) : Blind (PythonDice.settingsSetObj n o) := by
  unfold PythonDice.settingsSetObj
  split
  · exact setSetting _ _
  · exact throw _

theorem settingsSetStr (n t : PyText) : Blind (PythonDice.settingsSetStr n t) := by
  unfold PythonDice.settingsSetStr
  split
  · exact setSetting _ _
  · exact throw _

theorem absolute (a : Obj) : Blind (PythonDice.absolute a) :=
  orBlank (castCall (fun l => by unfold absoluteFn; split <;> first | exact pure _ | exact throw _) _)

theorem contains (a b : Obj) : Blind (PythonDice.contains a b) :=
  orBlank (castCall (fun l => by unfold containsFn; split <;> first | exact pure _ | exact throw _) _)

theorem countIn (a b : Obj) : Blind (PythonDice.countIn a b) :=
  orBlank (castCall (fun l => by unfold countInFn; split <;> first | exact pure _ | exact throw _) _)

theorem reverse (a : Obj) : Blind (PythonDice.reverse a) :=
  orBlank (castCall (fun l => by unfold reverseFn; split <;> first | exact pure _ | exact throw _) _)

theorem maximumOf (a : Obj) : Blind (PythonDice.maximumOf a) :=
  orBlank (castCall (fun l => by
    unfold maximumOfFn
    split
    · exact (reverse _).bind fun _ => (matmul _ _).bind fun _ => pure _
    · exact throw _) _)

theorem explodeHelper (depth : ℕ) (n mx d : Obj) : Blind (PythonDice.explodeHelper depth n mx d) := by
  induction depth generalizing n mx d with
  | zero =>
    refine castCall (fun l => ?_) _
    split
    · exact pure _
    · exact throw _
  | succ k ih =>
    refine castCall (fun l => ?_) _
    split
    · split
      · exact (ih _ _ _).bind fun _ => (binop _ _ _).bind fun _ => pure _
      · exact pure _
    · exact throw _

theorem explode (d : Obj) : Blind (PythonDice.explode d) :=
  orBlank (castCall (fun l => by
    unfold explodeFn
    split
    · exact settings.bind fun _ => (maximumOf _).bind fun _ => explodeHelper _ _ _ _
    · exact throw _) _)

theorem highestN (a b : Obj) : Blind (PythonDice.highestN a b) :=
  orBlank (castCall (fun l => by unfold highestNFn; split <;> first | exact map _ (matmul _ _) | exact throw _) _)

theorem lowestN (a b : Obj) : Blind (PythonDice.lowestN a b) :=
  orBlank (castCall (fun l => by unfold lowestNFn; split <;> first | exact map _ (matmul _ _) | exact throw _) _)

theorem middleN (a b : Obj) : Blind (PythonDice.middleN a b) :=
  orBlank (castCall (fun l => by
    unfold middleNFn
    split
    · dsimp only
      split
      · exact pure _
      · split <;> exact map _ (matmul _ _)
    · exact throw _) _)

theorem highestOf (a b : Obj) : Blind (PythonDice.highestOf a b) :=
  orBlank (castCall (fun l => by unfold highestOfFn; split <;> first | exact pure _ | exact throw _) _)

theorem lowestOf (a b : Obj) : Blind (PythonDice.lowestOf a b) :=
  orBlank (castCall (fun l => by unfold lowestOfFn; split <;> first | exact pure _ | exact throw _) _)

theorem sort (a : Obj) : Blind (PythonDice.sort a) :=
  orBlank (castCall (fun l => by unfold sortFn; split <;> first | exact pure _ | exact throw _) _)

theorem trueDiv (a b : Obj) : Blind (PythonDice.trueDiv a b) := binop _ _ _

end Blind

end PythonDice
