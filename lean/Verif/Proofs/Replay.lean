import Verif.Proofs.Calm
import Verif.Proofs.RollPure
import Verif.Proofs.Agree
import Verif.Spec.Session

/-!
# What was done before does not matter
-/

namespace PythonDice

open Spec Compiler

/-- Settings that agree in everything that programs can notice. -/
structure Alike (s s' : Settings) : Prop where
  zeros : s'.rvIgnoreZeroProbs = s.rvIgnoreZeroProbs
  order : s'.positionOrder = s.positionOrder
  explode : s'.explodeDepth = s.explodeDepth
  depth : s'.maxFuncDepth = s.maxFuncDepth
  now : s'.currDepth = s.currDepth

theorem Alike.refl (s : Settings) : Alike s s := ⟨rfl, rfl, rfl, rfl, rfl⟩

/-- States that differ only in what was rolled and output before, and in what nobody looks at. -/
structure Like (z : Bool) (pre : List (Obj × Option PyText)) (w w' : World) : Prop where
  settings : Alike w.settings w'.settings
  outs : w'.outs = pre ++ w.outs
  left : MemoPure z w
  right : MemoPure z w'

/-- A computation that does not notice what was done before. -/
def Replays {α : Type} (z : Bool) (m : M α) : Prop :=
  ∀ (w w' : World) (pre : List (Obj × Option PyText)), Like z pre w w' → (m w').1 = (m w).1 ∧ Like z pre (m w).2 (m w').2

/-- A function of the settings that does not look at the others. -/
def Unseeing {α : Type} (f : Settings → α) : Prop := ∀ s s', Alike s s' → f s' = f s

namespace Unseeing

theorem fromConst (n : ℤ) : Unseeing fun st => RV.fromConst st n := fun _ _ h => fromConst_congr h.zeros n

theorem fromSeq (l : List ℤ) : Unseeing fun st => RV.fromSeq st l := fun _ _ h => fromSeq_congr h.zeros l

theorem fromRvs (es : List (RV.Entry ℤ)) (ws : Option (List ℤ)) : Unseeing fun st => RV.fromRvs st es ws := fun _ _ h => fromRvs_congr h.zeros es ws

theorem binop (op : BinOp) (a b : RV ℤ) : Unseeing fun st => RV.binop st op a b := fun _ _ h => binop_congr h.zeros op a b

theorem binopNum (op : BinOp) (a : RV ℤ) (x : ℤ) : Unseeing fun st => RV.binopNum st op a x := fun _ _ h => mapVals_congr h.zeros a _

theorem rbinopNum (op : BinOp) (x : ℤ) (a : RV ℤ) : Unseeing fun st => RV.rbinopNum st op x a := fun _ _ h => mapVals_congr h.zeros a _

theorem neg (a : RV ℤ) : Unseeing fun st => RV.neg st a := fun _ _ h => mapVals_congr h.zeros a _

theorem invert (a : RV ℤ) : Unseeing fun st => RV.invert st a := fun _ _ h => by
  simp only [RV.invert, fromConst_congr h.zeros]

theorem abs (a : RV ℤ) : Unseeing fun st => RV.abs st a := fun _ _ h => mapVals_congr h.zeros a _

theorem const {α : Type} (x : α) : Unseeing fun _ => x := fun _ _ _ => rfl

theorem kth (r : RV ℤ) (draws : ℕ) (k : ℤ) : Unseeing fun st => RV.kthOrderStatistic st r draws k := by
  intro s s' h
  have e : RV.ascRank s' draws k = RV.ascRank s draws k := by unfold RV.ascRank; rw [h.order]
  simp only [RV.kthOrderStatistic, RV.getCdf, mk'_congr_int h.zeros, e]

end Unseeing

namespace Replays
variable {α β : Type} {z : Bool}

theorem same {m : M α} (h : ∀ w, (m w).2 = w) (e : ∀ w w', Alike w.settings w'.settings → (m w').1 = (m w).1) : Replays z m := by
  intro w w' pre hw
  rw [h w, h w']
  exact ⟨e w w' hw.settings, hw⟩

theorem pure (x : α) : Replays z (Pure.pure x : M α) := same (fun _ => rfl) fun _ _ _ => rfl

theorem throw (e : Err) : Replays z (M.throw e : M α) := same (fun _ => rfl) fun _ _ _ => rfl

theorem ofSettings {f : Settings → Except Err α} (h : Unseeing f) : Replays z (M.ofSettings f) := same (fun _ => rfl) fun _ _ hw => h _ _ hw

theorem ofLimited {f : Settings → Except Err (α × Bool)} (h : Unseeing f) : Replays z (M.ofLimited f) := by
  intro w w' pre hw
  unfold M.ofLimited
  rw [h _ _ hw.settings]
  rcases f w.settings with e | ⟨x, _ | _⟩
  · exact ⟨rfl, hw⟩
  · exact ⟨rfl, hw⟩
  · exact ⟨rfl, ⟨hw.settings, hw.outs, hw.left, hw.right⟩⟩

theorem bind {m : M α} {f : α → M β} (hm : Replays z m) (hf : ∀ x, Replays z (f x)) : Replays z (m >>= f) := by
  intro w w' pre hw
  obtain ⟨h1, h2⟩ := hm w w' pre hw
  rw [M.bind_apply, M.bind_apply]
  rcases hr : m w with ⟨r, v⟩
  rcases hr' : m w' with ⟨r', v'⟩
  rw [hr, hr'] at h1 h2
  dsimp only at h1 h2
  subst h1
  cases r' with
  | error e => exact ⟨rfl, h2⟩
  | ok x => exact hf x v v' pre h2

theorem map {m : M α} (f : α → β) (hm : Replays z m) : Replays z (f <$> m) := by
  have e : f <$> m = m >>= fun x => Pure.pure (f x) := rfl
  rw [e]
  exact hm.bind fun x => pure _

theorem forList {f : α → M β} (hf : ∀ x, Replays z (f x)) (l : List α) : Replays z (M.forList f l) := by
  induction l with
  | nil => exact pure []
  | cons x xs ih => exact (hf x).bind fun y => ih.bind fun ys => pure _

theorem castSlot (ty : Option Ty) (o : Obj) : Replays z (PythonDice.castSlot ty o) := by
  unfold PythonDice.castSlot
  split <;> first
    | exact pure _
    | exact (ofSettings (Unseeing.fromConst _)).bind fun _ => pure _
    | exact (ofSettings (Unseeing.fromSeq _)).bind fun _ => pure _

theorem castCall {f : List Obj → M (Option Obj)} (hf : ∀ l, Replays z (f l)) (args : List (Option Ty × Obj)) :
    Replays z (PythonDice.castCall f args) := by
  unfold PythonDice.castCall
  split
  · exact pure _
  · refine (forList (fun a => castSlot a.1 a.2) args).bind fun slots => ?_
    split
    · exact (forList (fun c : List Obj × ℕ => (hf c.1).bind fun v => pure _) _).bind fun res => (ofLimited (Unseeing.fromRvs _ _)).bind fun r => pure _
    · exact hf _

theorem orBlank {m : M (Option Obj)} (hm : Replays z m) : Replays z (PythonDice.orBlank m) := hm.bind fun _ => pure _

theorem negObj (o : Obj) : Replays z (PythonDice.negObj o) := by
  cases o <;> first | exact pure _ | exact map _ (ofSettings (Unseeing.neg _))

theorem blankL (op : BinOp) (s : Bool) (o : Obj) : Replays z (PythonDice.blankL op s o) := by
  unfold PythonDice.blankL
  split
  · split
    · exact pure _
    · exact negObj o
  · exact pure _

theorem numBinop (op : BinOp) (x : ℤ) (o : Obj) : Replays z (PythonDice.numBinop op x o) := by
  unfold PythonDice.numBinop
  split
  · exact map _ (ofSettings (Unseeing.const _))
  · split
    · exact pure _
    · exact map _ (ofSettings (Unseeing.const _))
  · split
    · exact map _ (ofSettings (Unseeing.binopNum _ _ _))
    · exact map _ (ofSettings (Unseeing.rbinopNum _ _ _))
  · exact pure _

theorem binop (op : BinOp) (a b : Obj) : Replays z (PythonDice.binop op a b) := by
  unfold PythonDice.binop
  split
  · exact numBinop _ _ _
  · split
    · exact pure _
    · exact map _ (ofSettings (Unseeing.const _))
  · split
    · exact pure _
    · exact map _ (ofSettings (Unseeing.const _))
  · exact numBinop _ _ _
  · exact map _ (ofSettings (Unseeing.binopNum _ _ _))
  · exact map _ (ofSettings (Unseeing.binopNum _ _ _))
  · exact map _ (ofLimited (Unseeing.binop _ _ _))
  · exact pure _
  · exact blankL _ _ _

theorem negOp (o : Obj) : Replays z (PythonDice.negOp o) := by
  cases o <;> first | exact pure _ | exact throw _ | exact map _ (ofSettings (Unseeing.neg _))

theorem posOp (o : Obj) : Replays z (PythonDice.posOp o) := by
  cases o <;> first | exact pure _ | exact throw _

theorem myInvert (o : Obj) : Replays z (PythonDice.myInvert o) := by
  cases o <;> first | exact pure _ | exact map _ (ofSettings (Unseeing.invert _))

theorem invertOp (o : Obj) : Replays z (PythonDice.invertOp o) := by
  cases o <;> first | exact pure _ | exact map _ (ofSettings (Unseeing.invert _))

theorem lenOp (o : Obj) : Replays z (PythonDice.lenOp o) := by
  cases o <;> first | exact pure _ | exact throw _

theorem truthOp (o : Obj) : Replays z (PythonDice.truthOp o) := by
  cases o <;> first | exact pure _ | exact throw _

theorem iterOp (o : Obj) : Replays z (PythonDice.iterOp o) := by
  cases o <;> first | exact pure _ | exact throw _

theorem myAnd (a b : Obj) : Replays z (PythonDice.myAnd a b) := by
  unfold PythonDice.myAnd
  split
  · exact pure _
  · exact binop _ _ _

theorem myOr (a b : Obj) : Replays z (PythonDice.myOr a b) := by
  unfold PythonDice.myOr
  split
  · exact pure _
  · exact binop _ _ _

theorem rvRmatmul (l : List ℤ) (r : RV ℤ) : Replays z (PythonDice.rvRmatmul l r) := by
  unfold PythonDice.rvRmatmul
  split
  · exact (ofLimited (Unseeing.kth _ _ _)).bind fun _ => pure _
  · refine (castCall ?_ _).bind fun _ => pure _
    intro l
    unfold sumAtFn
    split
    · exact pure _
    · exact throw _

theorem matmul (a b : Obj) : Replays z (PythonDice.matmul a b) := by
  unfold PythonDice.matmul
  split <;> first
    | exact pure _
    | exact throw _
    | exact rvRmatmul _ _
    | exact (ofSettings (Unseeing.const _)).bind fun _ => pure _

theorem myMatmul (a b : Obj) : Replays z (PythonDice.myMatmul a b) := by
  unfold PythonDice.myMatmul
  split
  · split
    · exact map _ (ofSettings (Unseeing.const _))
    · exact pure _
  · exact matmul _ _

theorem myRange (a b : Obj) : Replays z (PythonDice.myRange a b) := by
  unfold PythonDice.myRange
  split
  · exact pure _
  · exact throw _

theorem ofDet {m : M α} (h : Det z m) (hs : KeepsSettings m) (ho : Leaves World.outs m) : Replays z m := by
  intro w w' pre hw
  obtain ⟨v, hv⟩ := h
  obtain ⟨h1, h2⟩ := hv w hw.left
  obtain ⟨g1, g2⟩ := hv w' hw.right
  refine ⟨by rw [h1, g1], ⟨?_, ?_, h2, g2⟩⟩
  · rw [hs w, hs w']
    exact hw.settings
  · rw [ho w, ho w']
    exact hw.outs

theorem rollInt (n : ℤ) (d : RV ℤ) : Replays z (PythonDice.rollInt n d) := by
  refine ofDet (rollInt_det z n d) (KeepsSettings.rollInt n d) ?_
  unfold PythonDice.rollInt
  split
  · exact (leaves_rollNat _ _ _).bind fun _ _ => rfl
  · exact leaves_rollNat _ _ _

theorem asDie (d : Obj) : Replays z (PythonDice.asDie d) := by
  unfold PythonDice.asDie
  split
  · split
    · exact map _ (ofSettings (Unseeing.fromSeq _))
    · split
      · exact map _ (ofSettings (Unseeing.fromConst _))
      · exact map _ (ofSettings (Unseeing.fromSeq _))
  · split
    · exact pure _
    · exact map _ (ofSettings (Unseeing.fromSeq _))
  · exact pure _
  · exact pure _

theorem rollRV (n d : RV ℤ) : Replays z (PythonDice.rollRV n d) := by
  unfold PythonDice.rollRV
  refine (forList (fun v => rollInt v d) _).bind fun dies => (ofLimited (Unseeing.fromRvs _ _)).bind fun r => ?_
  split
  · exact pure _
  · exact throw _

theorem roll (n d : Obj) : Replays z (PythonDice.roll n d) := by
  unfold PythonDice.roll
  split
  · exact pure _
  · exact pure _
  · refine (asDie _).bind fun x => ?_
    split
    · exact pure _
    · split
      · exact map _ (rollInt _ _)
      · exact map _ (rollInt _ _)
      · exact rollRV _ _
      · exact pure _

theorem roll1 (d : Obj) : Replays z (PythonDice.roll1 d) := roll _ _

theorem absolute (a : Obj) : Replays z (PythonDice.absolute a) :=
  orBlank (castCall (fun l => by unfold absoluteFn; split <;> first | exact pure _ | exact throw _) _)

theorem contains (a b : Obj) : Replays z (PythonDice.contains a b) :=
  orBlank (castCall (fun l => by unfold containsFn; split <;> first | exact pure _ | exact throw _) _)

theorem countIn (a b : Obj) : Replays z (PythonDice.countIn a b) :=
  orBlank (castCall (fun l => by unfold countInFn; split <;> first | exact pure _ | exact throw _) _)

theorem reverse (a : Obj) : Replays z (PythonDice.reverse a) :=
  orBlank (castCall (fun l => by unfold reverseFn; split <;> first | exact pure _ | exact throw _) _)

theorem maximumOf (a : Obj) : Replays z (PythonDice.maximumOf a) :=
  orBlank (castCall (fun l => by
    unfold maximumOfFn
    split
    · exact (reverse _).bind fun _ => (matmul _ _).bind fun _ => pure _
    · exact throw _) _)

theorem explodeHelper (depth : ℕ) (n mx d : Obj) : Replays z (PythonDice.explodeHelper depth n mx d) := by
  induction depth generalizing n mx d with
  | zero =>
    refine castCall (fun l => ?_) _
    split
    · exact pure _
    · exact throw _
  | succ k ih =>
    refine castCall (fun l => ?_) _
    split
    · split
      · exact (ih _ _ _).bind fun _ => (binop _ _ _).bind fun _ => pure _
      · exact pure _
    · exact throw _

theorem settingsBind {f : Settings → M β}
    (h : ∀ w w' pre, Like z pre w w' → (f w'.settings w').1 = (f w.settings w).1 ∧ Like z pre (f w.settings w).2 (f w'.settings w').2) :
    Replays z (M.settings >>= f) := h

theorem explodeFn (o : Option ℤ) (l : List Obj) : Replays z (PythonDice.explodeFn o l) := by
  unfold PythonDice.explodeFn
  split
  · rename_i d
    refine settingsBind fun w w' pre hw => ?_
    rw [hw.settings.explode]
    exact ((maximumOf (z := z) d).bind fun mx => explodeHelper (o.getD w.settings.explodeDepth).toNat d mx d) w w' pre hw
  · exact throw _

theorem explode (d : Obj) : Replays z (PythonDice.explode d) := orBlank (castCall (fun l => explodeFn none l) _)

theorem highestN (a b : Obj) : Replays z (PythonDice.highestN a b) :=
  orBlank (castCall (fun l => by unfold highestNFn; split <;> first | exact map _ (matmul _ _) | exact throw _) _)

theorem lowestN (a b : Obj) : Replays z (PythonDice.lowestN a b) :=
  orBlank (castCall (fun l => by unfold lowestNFn; split <;> first | exact map _ (matmul _ _) | exact throw _) _)

theorem middleN (a b : Obj) : Replays z (PythonDice.middleN a b) :=
  orBlank (castCall (fun l => by
    unfold middleNFn
    split
    · dsimp only
      split
      · exact pure _
      · split <;> exact map _ (matmul _ _)
    · exact throw _) _)

theorem highestOf (a b : Obj) : Replays z (PythonDice.highestOf a b) :=
  orBlank (castCall (fun l => by unfold highestOfFn; split <;> first | exact pure _ | exact throw _) _)

theorem lowestOf (a b : Obj) : Replays z (PythonDice.lowestOf a b) :=
  orBlank (castCall (fun l => by unfold lowestOfFn; split <;> first | exact pure _ | exact throw _) _)

theorem sort (a : Obj) : Replays z (PythonDice.sort a) :=
  orBlank (castCall (fun l => by unfold sortFn; split <;> first | exact pure _ | exact throw _) _)

theorem trueDiv (a b : Obj) : Replays z (PythonDice.trueDiv a b) := binop _ _ _

theorem emitOutput (o : Obj) (t : Option PyText) : Replays z (PythonDice.emitOutput o t) := by
  intro w w' pre hw
  refine ⟨rfl, ⟨hw.settings, ?_, hw.left, hw.right⟩⟩
  change w'.outs ++ _ = pre ++ (w.outs ++ _)
  rw [hw.outs, List.append_assoc]

theorem depthCall {m : M (Option Obj)} (h : Replays z m) : Replays z (PythonDice.depthCall m) := by
  unfold PythonDice.depthCall
  refine settingsBind fun w w' pre hw => ?_
  rw [hw.settings.depth, hw.settings.now]
  by_cases hd : w.settings.maxFuncDepth ≤ w.settings.currDepth
  · rw [if_pos hd, if_pos hd]
    cases hb : w.settings.currDepthWarningPrinted <;> cases hb' : w'.settings.currDepthWarningPrinted
    · exact ⟨rfl, ⟨⟨hw.settings.zeros, hw.settings.order, hw.settings.explode, hw.settings.depth, hw.settings.now⟩, hw.outs, hw.left, hw.right⟩⟩
    · exact ⟨rfl, ⟨⟨hw.settings.zeros, hw.settings.order, hw.settings.explode, hw.settings.depth, hw.settings.now⟩, hw.outs, hw.left, hw.right⟩⟩
    · exact ⟨rfl, ⟨⟨hw.settings.zeros, hw.settings.order, hw.settings.explode, hw.settings.depth, hw.settings.now⟩, hw.outs, hw.left, hw.right⟩⟩
    · exact ⟨rfl, hw⟩
  · rw [if_neg hd, if_neg hd]
    have hs : ∀ k : ℤ, Replays z (M.modify fun w => { w with settings := { w.settings with currDepth := w.settings.currDepth + k } }) := by
      intro k v v' pre hv
      refine ⟨rfl, ⟨⟨hv.settings.zeros, hv.settings.order, hv.settings.explode, hv.settings.depth, ?_⟩, hv.outs, hv.left, hv.right⟩⟩
      change v'.settings.currDepth + k = v.settings.currDepth + k
      rw [hv.settings.now]
    exact ((hs 1).bind fun _ => h.bind fun r => (hs (-1)).bind fun _ => pure _) w w' pre hw

theorem fnCall {f : List Obj → M (Option Obj)} (h : ∀ os, Replays z (f os)) (args : List (Option Ty × Obj)) :
    Replays z (PythonDice.fnCall f args) := depthCall (castCall h args)

/-! ## Programs -/

theorem runBin (ints : Bool) (op : Compiler.BinOp) (a b : Obj) : Replays z (Spec.runBin ints op a b) := by
  unfold Spec.runBin
  split <;> first
    | exact binop _ _ _
    | (cases ints <;> first | exact matmul _ _ | exact myMatmul _ _ | exact myAnd _ _ | exact myOr _ _ | exact binop _ _ _)

theorem runUnary (ints : Bool) (op : UnOp) (a : Obj) : Replays z (Spec.runUnary ints op a) := by
  cases op with
  | plus => exact posOp _
  | minus => exact negOp _
  | not_ =>
    cases ints
    · exact invertOp _
    · exact myInvert _

theorem runLen (ints : Bool) (a : Obj) : Replays z (Spec.runLen ints a) := by
  cases ints
  · exact lenOp _
  · exact pure _

theorem getVar (R : Rules) (fr : Frame) (x : List Char) : Replays z (Spec.getVar R fr x) := by
  unfold Spec.getVar
  split
  · exact pure _
  · exact throw _

theorem textOf (R : Rules) (fr : Frame) (ps : List StrPart) : Replays z (Spec.textOf R fr ps) := by
  induction ps with
  | nil => exact pure _
  | cons p ps ih =>
    cases p with
    | text s => exact ih.bind fun _ => pure _
    | var x => exact (getVar _ _ _).bind fun _ => ih.bind fun _ => pure _

theorem loop {f : State → ℤ → M (State × Option Obj)} (h : ∀ s n, Replays z (f s n)) (ns : List ℤ) (s : State) : Replays z (runLoop f ns s) := by
  induction ns generalizing s with
  | nil => exact pure _
  | cons n ns ih =>
    rw [runLoop]
    refine (h s n).bind fun r => ?_
    obtain ⟨s1, o⟩ := r
    cases o with
    | some v => exact pure _
    | none => exact ih s1

theorem setSetting {n : List Char} (hn : n ≠ "RV_IGNORE_ZERO_PROBS".toList) (v : PyAny) : Replays z (PythonDice.setSetting n v) := by
  intro w w' pre hw
  unfold PythonDice.setSetting
  cases checkedValue (String.ofList n) v with
  | error e => exact ⟨rfl, hw⟩
  | ok u =>
    dsimp only
    obtain ⟨hs, ho, hl, hr⟩ := hw
    have key : (storeSetting w.settings n u = none ∧ storeSetting w'.settings n u = none) ∨
        ∃ t t', storeSetting w.settings n u = some t ∧ storeSetting w'.settings n u = some t' ∧ Alike t t' ∧
          t.rvIgnoreZeroProbs = w.settings.rvIgnoreZeroProbs := by
      have step : ∀ {β : Type} (o : Option β) (g g' : β → Settings), (∀ b, Alike (g b) (g' b) ∧
          (g b).rvIgnoreZeroProbs = w.settings.rvIgnoreZeroProbs) →
          (o.map g = none ∧ o.map g' = none) ∨ ∃ t t', o.map g = some t ∧ o.map g' = some t' ∧ Alike t t' ∧
            t.rvIgnoreZeroProbs = w.settings.rvIgnoreZeroProbs := by
        intro β o g g' h
        cases o with
        | none => exact Or.inl ⟨rfl, rfl⟩
        | some b => exact Or.inr ⟨_, _, rfl, rfl, (h b).1, (h b).2⟩
      unfold storeSetting
      by_cases h1 : n = "position order".toList
      · rw [if_pos h1, if_pos h1]
        refine step _ _ _ ?_
        exact fun b => ⟨⟨hs.zeros, rfl, hs.explode, hs.depth, hs.now⟩, rfl⟩
      rw [if_neg h1, if_neg h1]
      by_cases h2 : n = "explode depth".toList
      · rw [if_pos h2, if_pos h2]
        refine step _ _ _ ?_
        exact fun b => ⟨⟨hs.zeros, hs.order, rfl, hs.depth, hs.now⟩, rfl⟩
      rw [if_neg h2, if_neg h2]
      by_cases h3 : n = "maximum function depth".toList
      · rw [if_pos h3, if_pos h3]
        refine step _ _ _ ?_
        exact fun b => ⟨⟨hs.zeros, hs.order, hs.explode, rfl, hs.now⟩, rfl⟩
      rw [if_neg h3, if_neg h3]
      by_cases h4 : n = "RV_TRUNC".toList
      · rw [if_pos h4, if_pos h4]
        refine step _ _ _ ?_
        exact fun b => ⟨⟨hs.zeros, hs.order, hs.explode, hs.depth, hs.now⟩, rfl⟩
      rw [if_neg h4, if_neg h4, if_neg hn, if_neg hn]
      by_cases h5 : n = "DEFAULT_OUTPUT_WIDTH".toList
      · rw [if_pos h5, if_pos h5]
        refine step _ _ _ ?_
        exact fun b => ⟨⟨hs.zeros, hs.order, hs.explode, hs.depth, hs.now⟩, rfl⟩
      rw [if_neg h5, if_neg h5]
      exact Or.inl ⟨rfl, rfl⟩
    rcases key with ⟨h1, h2⟩ | ⟨t, t', h1, h2, h3, h4⟩
    · rw [h1, h2]
      exact ⟨rfl, ⟨hs, ho, hl, hr⟩⟩
    · rw [h1, h2]
      exact ⟨rfl, ⟨h3, ho, ⟨h4.trans hl.1, hl.2⟩, ⟨(h3.zeros.trans h4).trans hl.1, hr.2⟩⟩⟩

end Replays

/-- A computation that does not notice what was done before, and gives a result of a kind. -/
def ReplaysTo {α : Type} (z : Bool) (Q : α → Prop) (m : M α) : Prop := Replays z m ∧ ∀ w a, (m w).1 = .ok a → Q a

namespace ReplaysTo
variable {α β : Type} {z : Bool}

theorem pure {Q : α → Prop} {a : α} (h : Q a) : ReplaysTo z Q (Pure.pure a) := ⟨Replays.pure a, fun _ b hb => by cases hb; exact h⟩

theorem bind {Q : β → Prop} {m : M α} {f : α → M β} (hm : Replays z m) (hf : ∀ a, ReplaysTo z Q (f a)) : ReplaysTo z Q (m >>= f) := by
  refine ⟨hm.bind fun a => (hf a).1, fun w b hb => ?_⟩
  rw [M.bind_apply] at hb
  rcases hr : m w with ⟨r, w'⟩
  rw [hr] at hb
  cases r with
  | error e => cases hb
  | ok a => exact (hf a).2 w' b hb

theorem bindTo {P : α → Prop} {Q : β → Prop} {m : M α} {f : α → M β} (hm : ReplaysTo z P m) (hf : ∀ a, P a → ReplaysTo z Q (f a)) :
    ReplaysTo z Q (m >>= f) := by
  constructor
  · intro w w' pre hw
    obtain ⟨h1, h2⟩ := hm.1 w w' pre hw
    rw [M.bind_apply, M.bind_apply]
    have h3 := hm.2 w
    rcases hr : m w with ⟨r, v⟩
    rcases hr' : m w' with ⟨r', v'⟩
    rw [hr, hr'] at h1 h2
    rw [hr] at h3
    dsimp only at h1 h2 h3
    subst h1
    cases r' with
    | error e => exact ⟨rfl, h2⟩
    | ok x => exact (hf x (h3 x rfl)).1 v v' pre h2
  · intro w b hb
    rw [M.bind_apply] at hb
    have h3 := hm.2 w
    rcases hr : m w with ⟨r, w'⟩
    rw [hr] at hb h3
    cases r with
    | error e => cases hb
    | ok a => exact (hf a (h3 a rfl)).2 w' b hb

end ReplaysTo

/-- Functions of the library do not notice what was done before. -/
def FnReplays (z : Bool) : Fn → Prop
  | .lib g => ∀ os, Replays z (g os)
  | .user _ body => LeavesZeros body

/-- The same of all functions. -/
def FnsReplay (z : Bool) (fns : Fns) : Prop := ∀ p ∈ fns, FnReplays z p.2

/-- The same of calls. -/
def CallReplays (z : Bool) (call : RunCall) : Prop := ∀ fr fns d body args, FnsReplay z fns → LeavesZeros body →
  Replays z (call fr fns d body args)

/-- The functions after a statement. -/
def StReplays (z : Bool) (r : State × Option Obj) : Prop := FnsReplay z r.1.fns

section
variable {R : Rules} {z : Bool} {call : RunCall}

mutual

theorem replays_E (hc : CallReplays z call) {fns : Fns} (hf : FnsReplay z fns) (fr : Frame) (e : Expr) : Replays z (runE R call fns fr e) := by
  match e with
  | .num n => exact Replays.pure _
  | .dec _ _ => exact Replays.throw _
  | .var x => exact Replays.getVar R fr x
  | .str _ => exact Replays.throw _
  | .group e =>
    rw [runE]
    exact replays_E hc hf fr e
  | .bin op l r =>
    rw [runE]
    exact (replays_E hc hf fr l).bind fun a => (replays_E hc hf fr r).bind fun b => Replays.runBin _ _ _ _
  | .ndm l r =>
    rw [runE]
    exact (replays_E hc hf fr l).bind fun a => (replays_E hc hf fr r).bind fun b => Replays.roll _ _
  | .dm r =>
    rw [runE]
    exact (replays_E hc hf fr r).bind fun b => Replays.roll1 _
  | .unary op e =>
    rw [runE]
    exact (replays_E hc hf fr e).bind fun b => Replays.runUnary _ _ _
  | .hash e =>
    rw [runE]
    exact (replays_E hc hf fr e).bind fun b => Replays.runLen _ _
  | .seq es =>
    rw [runE]
    exact (replays_L hc hf fr es).bind fun b => Replays.pure _
  | .call cs =>
    rw [runE]
    have hg : ReplaysTo z (FnReplays z) (getFn fns (callSig cs)) := by
      unfold getFn
      cases hl : fns.lookup (callSig cs) with
      | none => exact ⟨Replays.throw _, fun _ _ h => by cases h⟩
      | some f =>
        obtain ⟨p, hp, rfl⟩ := lookup_mem hl
        exact ReplaysTo.pure (hf p hp)
    refine (hg.bindTo (Q := Any) fun f hfk => ⟨(replays_C hc hf fr cs).bind fun args => ?_, fun _ _ _ => trivial⟩).1
    cases f with
    | lib g => exact hfk args
    | user d body => exact hc fr fns d body args hf hfk

theorem replays_L (hc : CallReplays z call) {fns : Fns} (hf : FnsReplay z fns) (fr : Frame) (es : Elems) : Replays z (runElems R call fns fr es) := by
  match es with
  | .nil => exact Replays.pure _
  | .expr e es =>
    rw [runElems]
    exact (replays_E hc hf fr e).bind fun a => (replays_L hc hf fr es).bind fun b => Replays.pure _
  | .range l r es =>
    rw [runElems]
    exact (replays_E hc hf fr l).bind fun a => (replays_E hc hf fr r).bind fun b => (Replays.myRange _ _).bind fun s =>
      (replays_L hc hf fr es).bind fun b => Replays.pure _

theorem replays_C (hc : CallReplays z call) {fns : Fns} (hf : FnsReplay z fns) (fr : Frame) (cs : CallParts) :
    Replays z (runArgs R call fns fr cs) := by
  match cs with
  | .nil => exact Replays.pure _
  | .word w cs =>
    rw [runArgs]
    exact replays_C hc hf fr cs
  | .arg e cs =>
    rw [runArgs]
    exact (replays_E hc hf fr e).bind fun a => (replays_C hc hf fr cs).bind fun b => Replays.pure _

end

theorem replays_loop {f : State → ℤ → M (State × Option Obj)} (h : ∀ s n, FnsReplay z s.fns → ReplaysTo z (StReplays z) (f s n)) (ns : List ℤ) :
    ∀ s : State, FnsReplay z s.fns → ReplaysTo z (StReplays z) (runLoop f ns s) := by
  induction ns with
  | nil => exact fun s hs => ReplaysTo.pure hs
  | cons n ns ih =>
    intro s hs
    rw [runLoop]
    refine (h s n hs).bindTo fun r hr => ?_
    obtain ⟨s1, o⟩ := r
    cases o with
    | some v => exact ReplaysTo.pure hr
    | none => exact ih s1 hr

theorem plainText_inl_append (x : List Char) (t : PyText) : plainText (x.map Sum.inl ++ t) = (plainText t).map (x ++ ·) := by
  induction x with
  | nil =>
    change plainText t = (plainText t).map fun y => y
    rw [Option.map_id']
  | cons c x ih =>
    rw [List.map_cons, List.cons_append, plainText, ih, Option.map_map]
    rfl

/-- The name of a setting, as far as it is known. -/
theorem textOf_name (fr : Frame) (ps : List StrPart) : ReplaysTo z (fun t => plainText t = writtenName ps) (textOf R fr ps) := by
  induction ps with
  | nil => exact ReplaysTo.pure rfl
  | cons p ps ih =>
    cases p with
    | text s =>
      refine ih.bindTo fun t ht => ReplaysTo.pure ?_
      rw [plainText_inl_append, ht]
      rfl
    | var x => exact ReplaysTo.bind (Replays.getVar _ _ _) fun _ => ih.bindTo fun _ _ => ReplaysTo.pure rfl

theorem replays_set (hc : CallReplays z call) {s : State} (hf : FnsReplay z s.fns) {n : List StrPart}
    (hn : writtenName n ≠ some "RV_IGNORE_ZERO_PROBS".toList) (v : Expr) : Replays z (runSet R call s n v) := by
  have hs : ∀ m t, plainText m = writtenName n → Replays z (settingsSetStr m t) := by
    intro m t hm
    unfold settingsSetStr
    rw [hm]
    cases hw : writtenName n with
    | none => exact Replays.throw _
    | some x =>
      rw [hw] at hn
      rw [Option.bind_some]
      cases plainText t with
      | none => exact Replays.throw _
      | some a => exact Replays.setSetting (fun h => hn (congrArg some h)) _
  have ho : ∀ m t, plainText m = writtenName n → Replays z (settingsSetObj m t) := by
    intro m t hm
    unfold settingsSetObj
    rw [hm]
    cases hw : writtenName n with
    | none => exact Replays.throw _
    | some x =>
      rw [hw] at hn
      rw [Option.bind_some]
      cases settingArg x t with
      | none => exact Replays.throw _
      | some a => exact Replays.setSetting (fun h => hn (congrArg some h)) _
  have key : ∀ e : Expr, Replays z (textOf R s.fr n >>= fun n => runE R call s.fns s.fr e >>= fun o => settingsSetObj n o) :=
    fun e => ((textOf_name s.fr n).bindTo (Q := Any) fun m hm =>
      ⟨(replays_E hc hf s.fr e).bind fun o => ho m o hm, fun _ _ _ => trivial⟩).1
  cases v with
  | str ps => exact ((textOf_name s.fr n).bindTo (Q := Any) fun m hm =>
      ⟨(Replays.textOf _ _ _).bind fun t => hs m t hm, fun _ _ _ => trivial⟩).1
  | _ => exact key _

/-- A name that is permitted. -/
abbrev zerosName (n : List StrPart) : Bool := decide (writtenName n ≠ some "RV_IGNORE_ZERO_PROBS".toList)

mutual

theorem replays_S (hc : CallReplays z call) (st : Stmt) (hk : setsOnlyS zerosName st = true) (s : State) (hf : FnsReplay z s.fns) : ReplaysTo z (StReplays z) (runS R call st s) := by
  match st with
  | .output e =>
    rw [runS]
    exact ReplaysTo.bind (replays_E hc hf _ e) fun o => ReplaysTo.bind (Replays.emitOutput _ _) fun _ => ReplaysTo.pure hf
  | .outputNamed e n =>
    rw [runS]
    exact ReplaysTo.bind (replays_E hc hf _ e) fun o => ReplaysTo.bind (Replays.textOf _ _ _) fun _ =>
      ReplaysTo.bind (Replays.emitOutput _ _) fun _ => ReplaysTo.pure hf
  | .set n v =>
    rw [runS]
    rw [setsOnlyS] at hk
    exact ReplaysTo.bind (replays_set hc hf (of_decide_eq_true hk) v) fun _ => ReplaysTo.pure hf
  | .function d body =>
    rw [runS]
    refine ReplaysTo.pure fun p hp => ?_
    rcases List.mem_cons.1 hp with rfl | hp
    · rw [setsOnlyS] at hk
      exact hk
    · exact hf p hp
  | .result e =>
    rw [runS]
    exact ReplaysTo.bind (replays_E hc hf _ e) fun o => ReplaysTo.pure hf
  | .cond x b r =>
    rw [runS]
    rw [setsOnlyS, Bool.and_eq_true] at hk
    refine ReplaysTo.bind (replays_E hc hf _ x) fun o => ReplaysTo.bind (Replays.truthOp _) fun t => ?_
    cases t with
    | true => exact replays_B hc b hk.1 s hf
    | false => exact replays_Else hc r hk.2 s hf
  | .loop x e b =>
    rw [runS]
    rw [setsOnlyS] at hk
    exact ReplaysTo.bind (replays_E hc hf _ e) fun o => ReplaysTo.bind (Replays.iterOp _) fun ns =>
      replays_loop (fun s' n hs' => replays_B hc b hk { s' with fr := s'.fr.set x (.num n) } hs') ns s hf
  | .assign x e =>
    rw [runS]
    exact ReplaysTo.bind (replays_E hc hf _ e) fun o => ReplaysTo.pure hf

theorem replays_B (hc : CallReplays z call) (b : Block) (hk : setsOnlyB zerosName b = true) (s : State) (hf : FnsReplay z s.fns) : ReplaysTo z (StReplays z) (runB R call b s) := by
  match b with
  | .nil =>
    rw [runB]
    exact ReplaysTo.pure hf
  | .cons st b =>
    rw [runB]
    rw [setsOnlyB, Bool.and_eq_true] at hk
    refine (replays_S hc st hk.1 s hf).bindTo fun r hr => ?_
    obtain ⟨s1, o⟩ := r
    cases o with
    | some v => exact ReplaysTo.pure hr
    | none => exact replays_B hc b hk.2 s1 hr

theorem replays_Else (hc : CallReplays z call) (r : Else) (hk : setsOnlyE zerosName r = true) (s : State) (hf : FnsReplay z s.fns) : ReplaysTo z (StReplays z) (runElse R call r s) := by
  match r with
  | .done =>
    rw [runElse]
    exact ReplaysTo.pure hf
  | .else_ b =>
    rw [runElse]
    rw [setsOnlyE] at hk
    exact replays_B hc b hk s hf
  | .elif x b r =>
    rw [runElse]
    rw [setsOnlyE, Bool.and_eq_true] at hk
    refine ReplaysTo.bind (replays_E hc hf _ x) fun o => ReplaysTo.bind (Replays.truthOp _) fun t => ?_
    cases t with
    | true => exact replays_B hc b hk.1 s hf
    | false => exact replays_Else hc r hk.2 s hf

end

theorem replays_call (n : ℕ) : CallReplays z (runCall R n) := by
  induction n with
  | zero => exact fun _ _ _ _ _ _ _ => Replays.throw _
  | succ n ih =>
    intro fr fns d body args hf hk
    rw [runCall]
    exact Replays.fnCall (fun os => (replays_B ih body hk _ hf).1.bind fun r => Replays.pure _) _

end

theorem libraryFns_replay (R : Rules) (z : Bool) : FnsReplay z (if R.lib then libraryFns else []) := by
  cases R.lib with
  | false => exact fun p hp => by cases hp
  | true =>
    have one : ∀ g : Obj → M Obj, (∀ a, Replays z (g a)) → FnReplays z (fn1 g) := by
      intro g hg os
      rcases os with _ | ⟨a, _ | ⟨b, os⟩⟩
      · exact Replays.throw _
      · exact hg a
      · exact Replays.throw _
    have two : ∀ g : Obj → Obj → M Obj, (∀ a b, Replays z (g a b)) → FnReplays z (fn2 g) := by
      intro g hg os
      rcases os with _ | ⟨a, _ | ⟨b, _ | ⟨c, os⟩⟩⟩
      · exact Replays.throw _
      · exact Replays.throw _
      · exact hg a b
      · exact Replays.throw _
    intro p hp
    rw [if_pos rfl] at hp
    unfold libraryFns at hp
    simp only [List.mem_cons, List.not_mem_nil, or_false] at hp
    rcases hp with rfl | rfl | rfl | rfl | rfl | rfl | rfl | rfl | rfl | rfl | rfl | rfl | rfl
    · exact one _ Replays.absolute
    · exact two _ Replays.contains
    · exact two _ Replays.countIn
    · exact one _ fun d => Replays.explode d
    · exact two _ Replays.highestN
    · exact two _ Replays.lowestN
    · exact two _ Replays.middleN
    · exact two _ Replays.highestOf
    · exact two _ Replays.lowestOf
    · exact one _ Replays.maximumOf
    · exact one _ Replays.reverse
    · exact one _ Replays.sort
    · exact two _ Replays.trueDiv

/-- The program after others, whose outputs come first. -/
theorem block_replays (R : Rules) (n : ℕ) {b : Block} (hb : LeavesZeros b) (z : Bool) :
    Replays z (runB R (runCall R n) b ⟨if R.lib then libraryFns else [], ⟨none, [], []⟩⟩) :=
  (replays_B (replays_call n) b hb _ (libraryFns_replay R z)).1

/-- The result of a program, and the settings after it, in states in which different things were done before. -/
theorem run_replays (R : Rules) (n : ℕ) {b : Block} (hb : LeavesZeros b) {z : Bool} {w w' : World} (hs : Alike w.settings w'.settings)
    (hw : MemoPure z w) (hw' : MemoPure z w') :
    (run R n b w').1 = (run R n b w).1 ∧ Like z [] (run R n b w).2 (run R n b w').2 := by
  have h := block_replays R n hb z { w with outs := [] } { w' with outs := [] } [] ⟨hs, rfl, ⟨hw.1, hw.2⟩, ⟨hw'.1, hw'.2⟩⟩
  have e : ∀ w : World, run R n b w = (runB R (runCall R n) b ⟨if R.lib then libraryFns else [], ⟨none, [], []⟩⟩ >>= fun _ =>
      (M.get >>= fun w => pure w.outs : M (List (Obj × Option PyText)))) { w with outs := [] } := fun _ => rfl
  rw [e, e, M.bind_apply, M.bind_apply]
  generalize runB R (runCall R n) b ⟨if R.lib then libraryFns else [], ⟨none, [], []⟩⟩ { w with outs := [] } = x at h ⊢
  generalize runB R (runCall R n) b ⟨if R.lib then libraryFns else [], ⟨none, [], []⟩⟩ { w' with outs := [] } = x' at h ⊢
  rcases x with ⟨r, v⟩
  rcases x' with ⟨r', v'⟩
  obtain ⟨h1, h2⟩ := h
  dsimp only at h1 h2
  subst h1
  cases r' with
  | error e => exact ⟨rfl, h2⟩
  | ok x => exact ⟨congrArg Except.ok h2.outs, h2⟩

end PythonDice
