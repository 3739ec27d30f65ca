import Verif.Proofs.OwnLibrary
import Verif.Props.Funclib

/-!
# What the bodies of the functions written in the language give
-/

namespace PythonDice.Own

open Spec Spec.Own PythonDice.Compiler

/-- The names that the function gives values to are its own. -/
def Mine (fr : Frame) (xs : List (List Char)) : Prop := ∀ x ∈ xs, ∀ names, fr.own = some names → x ∈ names

theorem Mine.set {fr : Frame} {xs : List (List Char)} (h : Mine fr xs) (x : List Char) (o : Obj) : Mine (fr.set x o) xs := h

theorem find_set {fr : Frame} {xs : List (List Char)} (h : Mine fr xs) {x : List Char} (hx : x ∈ xs) (o : Obj) :
    (fr.set x o).find x = some o := by
  rcases fr with ⟨own, env, outer⟩
  cases own with
  | none => exact lookup_cons_eq x o env
  | some names =>
    show (if x ∈ names then ((x, o) :: env).lookup x else outer.lookup x) = _
    rw [if_pos (h x hx names rfl)]
    exact lookup_cons_eq x o env

theorem find_set_ne {fr : Frame} {x y : List Char} (h : y ≠ x) (o : Obj) : (fr.set x o).find y = fr.find y := by
  rcases fr with ⟨own, env, outer⟩
  cases own with
  | none => exact lookup_cons_ne h o env
  | some names =>
    show (if y ∈ names then ((x, o) :: env).lookup y else outer.lookup y) = _
    rw [lookup_cons_ne h o env]
    rfl

theorem mine_enter (R : Rules) (fr : Frame) (d : List DefPart) (body : Block) (os : List Obj) : Mine (enter R fr d body os) (assignsB body) := by
  intro x hx names h
  unfold enter at h
  split at h
  · cases h
  · cases h
    exact List.mem_append_right _ hx

section
variable {R : Rules} {call : RunCall} {fns : Fns} {fr : Frame}

theorem e_var {x : List Char} {o : Obj} (h : fr.find x = some o) : runE R call fns fr (.var x) = pure o := by
  rw [runE, getVar, h]

theorem e_num (n : List Char) : runE R call fns fr (.num n) = pure (.num (decimal n)) := by
  rw [runE]

theorem e_group (e : Expr) : runE R call fns fr (.group e) = runE R call fns fr e := by
  rw [runE]

theorem e_bin (op : Compiler.BinOp) {l r : Expr} {a b : Obj} (hl : runE R call fns fr l = pure a) (hr : runE R call fns fr r = pure b) :
    runE R call fns fr (.bin op l r) = runBin R.ints op a b := by
  rw [runE, hl, hr, pure_bind, pure_bind]

theorem e_unary (op : UnOp) {e : Expr} {a : Obj} (h : runE R call fns fr e = pure a) :
    runE R call fns fr (.unary op e) = runUnary R.ints op a := by
  rw [runE, h, pure_bind]

theorem e_hash {e : Expr} {a : Obj} (h : runE R call fns fr e = pure a) : runE R call fns fr (.hash e) = runLen R.ints a := by
  rw [runE, h, pure_bind]


theorem getSeq_nums (s : List ℤ) : flattenList (s.map Src.num) = s.map Src.num ∧ (s.map Src.num).flatMap Src.numVals = s ∧
    (s.map Src.num).flatMap Src.rvVals = [] := by
  induction s with
  | nil => exact ⟨rfl, rfl, rfl⟩
  | cons x s ih =>
    rw [List.map_cons, flattenList, List.flatMap_cons, List.flatMap_cons, ih.1, ih.2.1, ih.2.2]
    exact ⟨rfl, rfl, rfl⟩

/-- The numbers that an element of a sequence gives. -/
def numsOf : Obj → List ℤ
  | .num n => [n]
  | .seq s => s
  | _ => []

/-- The outcomes that an element of a sequence gives. -/
def facesFrom : Obj → List ℤ
  | .rv r => r.vals
  | _ => []

theorem flatten_toSrc (o : Obj) : (flattenSrc o.toSrc).flatMap Src.numVals = numsOf o ∧ (flattenSrc o.toSrc).flatMap Src.rvVals = facesFrom o := by
  cases o with
  | num n => exact ⟨rfl, rfl⟩
  | rv r => exact ⟨rfl, by simp [Obj.toSrc, flattenSrc, Src.rvVals, facesFrom]⟩
  | blank b => exact ⟨rfl, rfl⟩
  | seq s =>
    rw [Obj.toSrc, flattenSrc, (getSeq_nums s).1]
    exact (getSeq_nums s).2

theorem getSeq_items (os : List Obj) : getSeq [.iter (os.map Obj.toSrc)] = os.flatMap numsOf ++ os.flatMap facesFrom := by
  have h : ∀ os : List Obj, (flattenList (os.map Obj.toSrc)).flatMap Src.numVals = os.flatMap numsOf ∧
      (flattenList (os.map Obj.toSrc)).flatMap Src.rvVals = os.flatMap facesFrom := by
    intro os
    induction os with
    | nil => exact ⟨rfl, rfl⟩
    | cons o os ih =>
      rw [List.map_cons, flattenList, List.flatMap_append, List.flatMap_append, ih.1, ih.2, (flatten_toSrc o).1, (flatten_toSrc o).2]
      exact ⟨rfl, rfl⟩
  rw [getSeq]
  simp only [flattenList, flattenSrc, List.append_nil]
  rw [(h os).1, (h os).2]

theorem e_upto {l r : Expr} {a b : ℤ} (hl : runE R call fns fr l = pure (.num a)) (hr : runE R call fns fr r = pure (.num b)) :
    runE R call fns fr (upto l r) = pure (.seq (pyRange a (b + 1))) := by
  show runE R call fns fr (.seq (.range l r .nil)) = _
  rw [runE, runElems, hl, hr, runElems]
  simp only [pure_bind, myRange]
  rw [getSeq_items]
  simp [numsOf, facesFrom]

theorem e_nil : runE R call fns fr (.seq .nil) = pure (.seq []) := by
  rw [runE, runElems]
  rfl

theorem e_one {e : Expr} {a : Obj} (h : runE R call fns fr e = pure a) :
    runE R call fns fr (.seq (.expr e .nil)) = pure (.seq (getSeq [a.toSrc])) := by
  rw [runE, runElems, h, runElems]
  simp only [pure_bind]
  rw [getSeq_items, getSeq]
  simp only [flattenList, List.append_nil]
  rw [(flatten_toSrc a).1, (flatten_toSrc a).2]
  simp

theorem e_two {l r : Expr} {a b : Obj} (hl : runE R call fns fr l = pure a) (hr : runE R call fns fr r = pure b) :
    runE R call fns fr (two l r) = pure (.seq (numsOf a ++ numsOf b ++ (facesFrom a ++ facesFrom b))) := by
  show runE R call fns fr (.seq (.expr l (.expr r .nil))) = _
  rw [runE, runElems, hl, runElems, hr, runElems]
  simp only [pure_bind]
  rw [getSeq_items]
  simp

variable {b : Block}

theorem b_result {e : Expr} {m : M Obj} (h : runE R call fns fr e = m) :
    runB R call (.cons (.result e) b) ⟨fns, fr⟩ = m >>= fun o => pure (⟨fns, fr⟩, some o) := by
  rw [runB, runS, h, bind_assoc]
  simp only [pure_bind]

theorem b_assign {x : List Char} {e : Expr} {o : Obj} (h : runE R call fns fr e = pure o) :
    runB R call (.cons (.assign x e) b) ⟨fns, fr⟩ = runB R call b ⟨fns, fr.set x o⟩ := by
  rw [runB, runS, h]
  simp only [pure_bind]

theorem b_when {c : Expr} {ss : List Stmt} {n : ℤ} (h : runE R call fns fr c = pure (.num n)) :
    runB R call (.cons (when c ss) b) ⟨fns, fr⟩ = if n = 0 then runB R call b ⟨fns, fr⟩ else
      runB R call (blk ss) ⟨fns, fr⟩ >>= fun r => match r.2 with
        | some v => pure (r.1, some v)
        | none => runB R call b r.1 := by
  rw [runB, runS, h]
  simp only [pure_bind, truthOp]
  by_cases hn : n = 0
  · rw [if_pos hn, if_neg (by simpa using hn), runElse]
    simp only [pure_bind]
  · rw [if_neg hn, if_pos (by simpa using hn)]
    rfl

theorem b_loop {x : List Char} {e : Expr} {body : Block} {l : List ℤ} (h : runE R call fns fr e = pure (.seq l)) :
    runB R call (.cons (.loop x e body) b) ⟨fns, fr⟩ =
      runLoop (fun (s : State) n => runB R call body { s with fr := s.fr.set x (.num n) }) l ⟨fns, fr⟩ >>= fun r => match r.2 with
        | some v => pure (r.1, some v)
        | none => runB R call b r.1 := by
  rw [runB, runS, h]
  simp only [pure_bind, iterOp]
  rfl

theorem b_nil (s : State) : runB R call .nil s = pure (s, none) := by rw [runB]

/-- A loop that keeps an invariant. -/
theorem loop_run {x : List Char} {body : Block} {α : Type} (P : α → Frame → Prop) (f : α → ℤ → α)
    (h : ∀ a fr n, P a fr → ∃ fr', P (f a n) fr' ∧ runB R call body ⟨fns, fr.set x (.num n)⟩ = pure (⟨fns, fr'⟩, none)) (l : List ℤ) (a : α)
    (hP : P a fr) :
    ∃ fr', P (l.foldl f a) fr' ∧
      runLoop (fun (s : State) n => runB R call body { s with fr := s.fr.set x (.num n) }) l ⟨fns, fr⟩ = pure (⟨fns, fr'⟩, none) := by
  induction l generalizing a fr with
  | nil => exact ⟨fr, hP, rfl⟩
  | cons n l ih =>
    obtain ⟨fr1, h1, h2⟩ := h a fr n hP
    obtain ⟨fr2, h3, h4⟩ := ih (fr := fr1) (f a n) h1
    refine ⟨fr2, h3, ?_⟩
    rw [runLoop]
    dsimp only
    rw [h2, pure_bind]
    exact h4

theorem bin_cmp (i : Bool) {op : Compiler.BinOp} {op' : BinOp} (h : runBin i op = binop op') {a b c : ℤ} (hc : intBinop op' a b = .ok c) :
    runBin i op (.num a) (.num b) = pure (.num c) := by
  rw [h, binop, numBinop]
  show Obj.num <$> (M.ofSettings fun _ => intBinop op' a b) = _
  rw [hc]
  rfl

theorem bin_lt (i : Bool) (a b : ℤ) : runBin i .lt (.num a) (.num b) = pure (.num (ofBool (decide (a < b)))) := bin_cmp i rfl rfl
theorem bin_gt (i : Bool) (a b : ℤ) : runBin i .gt (.num a) (.num b) = pure (.num (ofBool (decide (a > b)))) := bin_cmp i rfl rfl
theorem bin_ge (i : Bool) (a b : ℤ) : runBin i .ge (.num a) (.num b) = pure (.num (ofBool (decide (a ≥ b)))) := bin_cmp i rfl rfl
theorem bin_eq (i : Bool) (a b : ℤ) : runBin i .eq (.num a) (.num b) = pure (.num (ofBool (decide (a = b)))) := bin_cmp i rfl rfl
theorem bin_add (i : Bool) (a b : ℤ) : runBin i .add (.num a) (.num b) = pure (.num (a + b)) := bin_cmp i rfl rfl
theorem bin_sub (i : Bool) (a b : ℤ) : runBin i .sub (.num a) (.num b) = pure (.num (a - b)) := bin_cmp i rfl rfl
theorem bin_half (i : Bool) (a : ℤ) : runBin i .div (.num a) (.num 2) = pure (.num (a.fdiv 2)) := bin_cmp i rfl rfl

theorem bin_at_seq (i : Bool) (a : ℤ) (s : List ℤ) : runBin i .at_ (.num a) (.seq s) = pure (.num (getItem s a)) := by
  cases i <;> rfl

theorem bin_at (i : Bool) (l : List ℤ) (o : Obj) : runBin i .at_ (.seq l) o = matmul (.seq l) o := by
  cases i <;> rfl

theorem bin_at_die (i : Bool) (n : ℤ) {o : Obj} (h : fits (some .D) o = true) : runBin i .at_ (.num n) o = matmul (.num n) o := by
  cases i <;> cases o <;> first | rfl | cases h

theorem len_seq (i : Bool) (s : List ℤ) : runLen i (.seq s) = pure (.num s.length) := by
  cases i <;> rfl

theorem len_die (i : Bool) {o : Obj} (h : fits (some .D) o = true) : runLen i o = pure (.num (myLen o)) := by
  cases i <;> cases o <;> first | rfl | cases h

theorem bool_zero (p : Prop) [Decidable p] : ofBool (decide p) = 0 ↔ ¬p := by
  by_cases h : p <;> simp [h, ofBool]
end

theorem absolute_body (R : Rules) (call : RunCall) (fns : Fns) (fr : Frame) (n : ℤ) :
    bodyOf R call fns fr absoluteHead absoluteBody [.num n] = absoluteFn [.num n] := by
  have hX : (enter R fr absoluteHead absoluteBody [.num n]).find "X".toList = some (.num n) := by
    rcases R with ⟨c, i, l⟩
    cases c <;> rfl
  unfold bodyOf
  generalize enter R fr absoluteHead absoluteBody [.num n] = fr' at hX
  unfold absoluteBody
  rw [b_when ((e_bin .lt (e_var hX) (e_num _)).trans (bin_lt _ _ _))]
  simp only [bool_zero]
  by_cases h : n < 0
  · rw [if_neg (by simpa [decimal] using h), b_result (e_unary .minus (e_var hX))]
    simp [runUnary, negOp, absoluteFn, h]
  · rw [if_pos (by simpa [decimal] using h), b_result (e_var hX)]
    simp [absoluteFn, h]

theorem contains_body (R : Rules) (call : RunCall) (fns : Fns) (fr : Frame) (s : List ℤ) (n : ℤ) :
    bodyOf R call fns fr containsHead containsBody [.seq s, .num n] = containsFn [.seq s, .num n] := by
  have hS : (enter R fr containsHead containsBody [.seq s, .num n]).find "S".toList = some (.seq s) := by
    rcases R with ⟨c, i, l⟩
    cases c <;> rfl
  have hN : (enter R fr containsHead containsBody [.seq s, .num n]).find "N".toList = some (.num n) := by
    rcases R with ⟨c, i, l⟩
    cases c <;> rfl
  unfold bodyOf
  generalize enter R fr containsHead containsBody [.seq s, .num n] = fr' at hS hN
  unfold containsBody
  have e : runBin R.ints .eq (.seq s) (.num n) = pure (.num (seqCmpNum .eq s n)) := rfl
  rw [b_result ((e_bin .gt ((e_group _).trans ((e_bin .eq (e_var hS) (e_var hN)).trans e)) (e_num _)).trans (bin_gt _ _ _))]
  rfl

theorem greater_body (R : Rules) (call : RunCall) (fns : Fns) (fr : Frame) (a b : ℤ) :
    bodyOf R call fns fr greaterHead greaterBody [.num a, .num b] = highestOfFn [.num a, .num b] := by
  have hA : (enter R fr greaterHead greaterBody [.num a, .num b]).find "A".toList = some (.num a) := by
    rcases R with ⟨c, i, l⟩
    cases c <;> rfl
  have hB : (enter R fr greaterHead greaterBody [.num a, .num b]).find "B".toList = some (.num b) := by
    rcases R with ⟨c, i, l⟩
    cases c <;> rfl
  unfold bodyOf
  generalize enter R fr greaterHead greaterBody [.num a, .num b] = fr' at hA hB
  unfold greaterBody
  rw [b_when ((e_bin .gt (e_var hA) (e_var hB)).trans (bin_gt _ _ _))]
  simp only [bool_zero]
  by_cases h : a > b
  · rw [if_neg (by simpa using h), b_result (e_var hA)]
    simp only [highestOfFn, if_pos h]
    rfl
  · rw [if_pos h, b_result (e_var hB)]
    simp only [highestOfFn, if_neg h]
    rfl

theorem smaller_body (R : Rules) (call : RunCall) (fns : Fns) (fr : Frame) (a b : ℤ) :
    bodyOf R call fns fr smallerHead smallerBody [.num a, .num b] = lowestOfFn [.num a, .num b] := by
  have hA : (enter R fr smallerHead smallerBody [.num a, .num b]).find "A".toList = some (.num a) := by
    rcases R with ⟨c, i, l⟩
    cases c <;> rfl
  have hB : (enter R fr smallerHead smallerBody [.num a, .num b]).find "B".toList = some (.num b) := by
    rcases R with ⟨c, i, l⟩
    cases c <;> rfl
  unfold bodyOf
  generalize enter R fr smallerHead smallerBody [.num a, .num b] = fr' at hA hB
  unfold smallerBody
  rw [b_when ((e_bin .lt (e_var hA) (e_var hB)).trans (bin_lt _ _ _))]
  simp only [bool_zero]
  by_cases h : a < b
  · rw [if_neg (by simpa using h), b_result (e_var hA)]
    simp only [lowestOfFn, if_pos h]
    rfl
  · rw [if_pos h, b_result (e_var hB)]
    simp only [lowestOfFn, if_neg h]
    rfl

theorem some_map (m : M Obj) (s : State) : (do
    let r ← m >>= fun o => pure (s, some o)
    pure r.2 : M (Option Obj)) = some <$> m := by
  simp only [bind_assoc, pure_bind, map_eq_pure_bind]

theorem highest_body (R : Rules) (call : RunCall) (fns : Fns) (fr : Frame) (n : ℤ) (d : Obj) :
    bodyOf R call fns fr highestHead highestBody [.num n, d] = highestNFn [.num n, d] := by
  have hN : (enter R fr highestHead highestBody [.num n, d]).find "N".toList = some (.num n) := by
    rcases R with ⟨c, i, l⟩
    cases c <;> rfl
  have hD : (enter R fr highestHead highestBody [.num n, d]).find "D".toList = some d := by
    rcases R with ⟨c, i, l⟩
    cases c <;> rfl
  unfold bodyOf
  generalize enter R fr highestHead highestBody [.num n, d] = fr' at hN hD
  unfold highestBody
  rw [b_result ((e_bin .at_ (e_upto (e_num _) (e_var hN)) (e_var hD)).trans (bin_at _ _ _)), some_map]
  rfl

theorem lowest_body (R : Rules) (call : RunCall) (fns : Fns) (fr : Frame) (n : ℤ) (d : Obj) (hd : fits (some .D) d = true) :
    bodyOf R call fns fr lowestHead lowestBody [.num n, d] = lowestNFn [.num n, d] := by
  have hN : (enter R fr lowestHead lowestBody [.num n, d]).find "N".toList = some (.num n) := by
    rcases R with ⟨c, i, l⟩
    cases c <;> rfl
  have hD : (enter R fr lowestHead lowestBody [.num n, d]).find "D".toList = some d := by
    rcases R with ⟨c, i, l⟩
    cases c <;> rfl
  unfold bodyOf
  generalize enter R fr lowestHead lowestBody [.num n, d] = fr' at hN hD
  unfold lowestBody
  have hl : runE R call fns fr' (.hash (v "D")) = pure (.num (myLen d)) := (e_hash (e_var hD)).trans (len_die _ hd)
  rw [b_result ((e_bin .at_ (e_upto ((e_bin .add ((e_bin .sub hl (e_var hN)).trans (bin_sub _ _ _)) (e_num _)).trans (bin_add _ _ _)) hl) (e_var hD)).trans (bin_at _ _ _)),
    some_map]
  rfl

theorem middle_body (R : Rules) (call : RunCall) (fns : Fns) (fr : Frame) (n : ℤ) (d : Obj) (hd : fits (some .D) d = true) :
    bodyOf R call fns fr middleHead middleBody [.num n, d] = middleNFn [.num n, d] := by
  have hN : (enter R fr middleHead middleBody [.num n, d]).find "N".toList = some (.num n) := by
    rcases R with ⟨c, i, l⟩
    cases c <;> rfl
  have hD : (enter R fr middleHead middleBody [.num n, d]).find "D".toList = some d := by
    rcases R with ⟨c, i, l⟩
    cases c <;> rfl
  have hm := mine_enter R fr middleHead middleBody [.num n, d]
  unfold bodyOf
  generalize enter R fr middleHead middleBody [.num n, d] = fr' at hN hD hm
  unfold middleBody
  have hl : ∀ fr'' : Frame, fr''.find "D".toList = some d → runE R call fns fr'' (.hash (v "D")) = pure (.num (myLen d)) :=
    fun _ h => (e_hash (e_var h)).trans (len_die _ hd)
  rw [b_when ((e_bin .eq (e_var hN) (hl _ hD)).trans (bin_eq _ _ _))]
  simp only [bool_zero]
  unfold middleNFn
  by_cases h : n = (myLen d : ℤ)
  · rw [if_neg (by simpa using h), b_result (e_var hD)]
    dsimp only
    rw [if_pos h]
    rfl
  · rw [if_pos h]
    dsimp only
    rw [if_neg h]
    rw [b_when ((e_bin .eq (e_var hN) (e_num _)).trans (bin_eq _ _ _))]
    simp only [bool_zero]
    by_cases h1 : n = 1
    · rw [if_neg (show ¬¬n = decimal "1".toList from not_not.2 h1), if_pos h1,
        b_result ((e_bin .at_ ((e_group _).trans ((e_bin .add (e_num _) ((e_bin .div ((e_group _).trans ((e_bin .sub (hl _ hD) (e_num _)).trans (bin_sub _ _ _)))
          (e_num _)).trans (bin_half _ _))).trans (bin_add _ _ _))) (e_var hD)).trans (bin_at_die _ _ hd))]
      simp only [bind_assoc, pure_bind, map_eq_pure_bind]
      rfl
    · rw [if_pos (show ¬n = decimal "1".toList from h1), if_neg h1,
        b_assign ((e_bin .add (e_num _) ((e_bin .div ((e_group _).trans ((e_bin .sub (hl _ hD) (e_var hN)).trans (bin_sub _ _ _)))
          (e_num _)).trans (bin_half _ _))).trans (bin_add _ _ _))]
      have hF := find_set hm (x := "F".toList) (by decide) (.num (decimal "1".toList + ((myLen d : ℤ) - n).fdiv 2))
      rw [← find_set_ne (x := "F".toList) (by decide) (.num (decimal "1".toList + ((myLen d : ℤ) - n).fdiv 2))] at hD hN
      rw [b_result ((e_bin .at_ (e_upto (e_var hF) ((e_bin .sub ((e_bin .add (e_var hF) (e_var hN)).trans (bin_add _ _ _)) (e_num _)).trans (bin_sub _ _ _)))
        (e_var hD)).trans (bin_at _ _ _)), some_map]
      rfl

theorem maximum_body (R : Rules) (call : RunCall) (fns : Fns) (fr : Frame) (d : Obj) :
    bodyOf R call fns fr maximumHead maximumBody [d] = maximumOfFn [d] := by
  have hD : (enter R fr maximumHead maximumBody [d]).find "D".toList = some d := by
    rcases R with ⟨c, i, l⟩
    cases c <;> rfl
  have hm := mine_enter R fr maximumHead maximumBody [d]
  unfold bodyOf
  generalize enter R fr maximumHead maximumBody [d] = fr' at hD hm
  unfold maximumBody
  rw [b_assign (e_one (e_var hD))]
  have hS := find_set hm (x := "S".toList) (by decide) (.seq (getSeq [d.toSrc]))
  rw [b_result ((e_bin .at_ ((e_hash (e_var hS)).trans (len_seq _ _)) (e_var hS)).trans (bin_at_seq _ _ _))]
  have e : maximumOfFn [d] = pure (some (.num (getItem (getSeq [d.toSrc]).reverse 1))) := rfl
  rw [e]
  have : ∀ s : List ℤ, getItem s s.length = getItem s.reverse 1 := by
    intro s
    rcases List.eq_nil_or_concat s with rfl | ⟨l, x, rfl⟩
    · rfl
    · simp [getItem]
  rw [this]
  rfl

theorem count_body (R : Rules) (call : RunCall) (fns : Fns) (fr : Frame) (vs s : List ℤ) :
    bodyOf R call fns fr countHead countBody [.seq vs, .seq s] = countInFn [.seq vs, .seq s] := by
  have hV : (enter R fr countHead countBody [.seq vs, .seq s]).find "V".toList = some (.seq vs) := by
    rcases R with ⟨c, i, l⟩
    cases c <;> rfl
  have hS : (enter R fr countHead countBody [.seq vs, .seq s]).find "S".toList = some (.seq s) := by
    rcases R with ⟨c, i, l⟩
    cases c <;> rfl
  have hm := mine_enter R fr countHead countBody [.seq vs, .seq s]
  unfold bodyOf
  generalize enter R fr countHead countBody [.seq vs, .seq s] = fr' at hV hS hm
  obtain ⟨xs, hxs⟩ : ∃ xs, xs = assignsB countBody := ⟨_, rfl⟩
  have hC : "C".toList ∈ xs := by rw [hxs]; decide
  have hP : "P".toList ∈ xs := by rw [hxs]; decide
  rw [← hxs] at hm
  unfold countBody
  rw [b_assign (e_num _), b_loop (e_upto (e_num _) ((e_hash (e_var ((find_set_ne (by decide) _).trans hV))).trans (len_seq _ _)))]
  obtain ⟨fr2, ⟨h1, -⟩, h2⟩ := loop_run (R := R) (call := call) (fns := fns) (x := "P".toList) (body := countStep)
    (fun (c : ℤ) (g : Frame) => g.find "C".toList = some (.num c) ∧ g.find "V".toList = some (.seq vs) ∧ g.find "S".toList = some (.seq s) ∧ Mine g xs)
    (fun c p => c + seqCmpNum .eq s (getItem vs p)) (fun c g p ⟨g1, g2, g3, g4⟩ => by
      have e : ∀ i : Bool, ∀ a : ℤ, runBin i .eq (.num a) (.seq s) = pure (.num (seqCmpNum .eq s a)) := fun _ _ => rfl
      refine ⟨(g.set "P".toList (.num p)).set "C".toList (.num (c + seqCmpNum .eq s (getItem vs p))), ⟨find_set (g4.set _ _) hC _, ?_, ?_, (g4.set _ _).set _ _⟩, ?_⟩
      · rw [find_set_ne (by decide), find_set_ne (by decide), g2]
      · rw [find_set_ne (by decide), find_set_ne (by decide), g3]
      · unfold countStep
        rw [b_assign ((e_bin .add (e_var ((find_set_ne (by decide) _).trans g1)) ((e_group _).trans ((e_bin .eq ((e_bin .at_ (e_var (find_set g4 hP _))
          (e_var ((find_set_ne (by decide) _).trans g2))).trans (bin_at_seq _ _ _)) (e_var ((find_set_ne (by decide) _).trans g3))).trans (e _ _)))).trans (bin_add _ _ _)), b_nil])
    (pyRange (decimal "1".toList) ((vs.length : ℤ) + 1)) 0 (fr := fr'.set "C".toList (.num (decimal "0".toList)))
    ⟨find_set hm hC _, (find_set_ne (by decide) _).trans hV, (find_set_ne (by decide) _).trans hS, hm.set _ _⟩
  rw [h2, pure_bind]
  dsimp only
  rw [b_result (e_var h1)]
  rfl

theorem reverse_body (R : Rules) (call : RunCall) (fns : Fns) (fr : Frame) (s : List ℤ) :
    bodyOf R call fns fr reverseHead reverseBody [.seq s] = reverseFn [.seq s] := by
  have hS : (enter R fr reverseHead reverseBody [.seq s]).find "S".toList = some (.seq s) := by
    rcases R with ⟨c, i, l⟩
    cases c <;> rfl
  have hm := mine_enter R fr reverseHead reverseBody [.seq s]
  unfold bodyOf
  generalize enter R fr reverseHead reverseBody [.seq s] = fr' at hS hm
  obtain ⟨xs, hxs⟩ : ∃ xs, xs = assignsB reverseBody := ⟨_, rfl⟩
  have hR : "R".toList ∈ xs := by rw [hxs]; decide
  have hP : "P".toList ∈ xs := by rw [hxs]; decide
  rw [← hxs] at hm
  unfold reverseBody
  rw [b_assign e_nil, b_loop (e_upto (e_num _) ((e_hash (e_var ((find_set_ne (by decide) _).trans hS))).trans (len_seq _ _)))]
  obtain ⟨fr2, ⟨h1, -⟩, h2⟩ := loop_run (R := R) (call := call) (fns := fns) (x := "P".toList) (body := reverseStep)
    (fun (r : List ℤ) (g : Frame) => g.find "R".toList = some (.seq r) ∧ g.find "S".toList = some (.seq s) ∧ Mine g xs)
    (fun r p => getItem s p :: r) (fun r g p ⟨g1, g3, g4⟩ => by
      refine ⟨(g.set "P".toList (.num p)).set "R".toList (.seq (getItem s p :: r)), ⟨find_set (g4.set _ _) hR _, ?_, (g4.set _ _).set _ _⟩, ?_⟩
      · rw [find_set_ne (by decide), find_set_ne (by decide), g3]
      · unfold reverseStep
        rw [b_assign (e_two ((e_bin .at_ (e_var (find_set g4 hP _)) (e_var ((find_set_ne (by decide) _).trans g3))).trans (bin_at_seq _ _ _))
          (e_var ((find_set_ne (by decide) _).trans g1))), b_nil]
        simp [numsOf, facesFrom])
    (pyRange (decimal "1".toList) ((s.length : ℤ) + 1)) [] (fr := fr'.set "R".toList (.seq []))
    ⟨find_set hm hR _, (find_set_ne (by decide) _).trans hS, hm.set _ _⟩
  have e : (pyRange 1 (s.length + 1)).foldl (fun r p => getItem s p :: r) [] = s.reverse := by
    have : ∀ (l : List ℤ) (acc : List ℤ), l.foldl (fun r p => getItem s p :: r) acc = (l.map (getItem s)).reverse ++ acc := by
      intro l
      induction l with
      | nil => intro acc; rfl
      | cons x l ih => intro acc; simp [ih]
    rw [this, map_getItem, List.append_nil]
  rw [h2, pure_bind]
  dsimp only
  rw [b_result (e_var h1)]
  show (pure (some (Obj.seq ((pyRange 1 (s.length + 1)).foldl (fun r p => getItem s p :: r) []))) : M (Option Obj)) = _
  rw [e]
  rfl

/-- Putting a number into a sequence: what the loop has after the elements read so far. -/
def putRead (n : ℤ) (a : List ℤ × Bool) (x : ℤ) : List ℤ × Bool :=
  if a.2 then (a.1 ++ [x], true) else if n ≥ x then (a.1 ++ [n, x], true) else (a.1 ++ [x], false)

theorem putRead_done (n : ℤ) (l : List ℤ) (acc : List ℤ) : l.foldl (putRead n) (acc, true) = (acc ++ l, true) := by
  induction l generalizing acc with
  | nil => simp
  | cons x l ih => rw [List.foldl_cons, putRead]; simp [ih]

theorem putRead_eq (n : ℤ) (l : List ℤ) (acc : List ℤ) :
    (if (l.foldl (putRead n) (acc, false)).2 then (l.foldl (putRead n) (acc, false)).1 else (l.foldl (putRead n) (acc, false)).1 ++ [n]) =
      acc ++ l.orderedInsert (fun a b : ℤ => b ≤ a) n := by
  induction l generalizing acc with
  | nil => simp
  | cons x l ih =>
    rw [List.foldl_cons, List.orderedInsert_cons]
    by_cases h : n ≥ x
    · have e : putRead n (acc, false) x = (acc ++ [n, x], true) := by simp [putRead, h]
      rw [e, putRead_done, if_pos rfl, if_pos h]
      simp
    · have e : putRead n (acc, false) x = (acc ++ [x], false) := by simp [putRead, h]
      rw [e, ih, if_neg h]
      simp

/-- Putting a number into a sequence. -/
def putFn : List Obj → M (Option Obj)
  | [.num n, .seq s] => pure (some (.seq (s.orderedInsert (fun a b : ℤ => b ≤ a) n)))
  | _ => M.throw .type

theorem put_body (R : Rules) (call : RunCall) (fns : Fns) (fr : Frame) (n : ℤ) (s : List ℤ) :
    bodyOf R call fns fr putHead putBody [.num n, .seq s] = putFn [.num n, .seq s] := by
  have hN : (enter R fr putHead putBody [.num n, .seq s]).find "N".toList = some (.num n) := by
    rcases R with ⟨c, i, l⟩
    cases c <;> rfl
  have hS : (enter R fr putHead putBody [.num n, .seq s]).find "S".toList = some (.seq s) := by
    rcases R with ⟨c, i, l⟩
    cases c <;> rfl
  have hm := mine_enter R fr putHead putBody [.num n, .seq s]
  unfold bodyOf
  generalize enter R fr putHead putBody [.num n, .seq s] = fr' at hN hS hm
  obtain ⟨xs, hxs⟩ : ∃ xs, xs = assignsB putBody := ⟨_, rfl⟩
  have hR : "R".toList ∈ xs := by rw [hxs]; decide
  have hW : "W".toList ∈ xs := by rw [hxs]; decide
  have hX : "X".toList ∈ xs := by rw [hxs]; decide
  rw [← hxs] at hm
  unfold putBody
  rw [b_assign e_nil, b_assign (e_num _), b_loop (e_var ((find_set_ne (by decide) _).trans ((find_set_ne (by decide) _).trans hS)))]
  obtain ⟨fr2, ⟨h1, h3, h4, h5⟩, h2⟩ := loop_run (R := R) (call := call) (fns := fns) (x := "X".toList) (body := putStep)
    (fun (a : List ℤ × Bool) (g : Frame) => g.find "R".toList = some (.seq a.1) ∧ g.find "W".toList = some (.num (ofBool a.2)) ∧ g.find "N".toList = some (.num n) ∧ Mine g xs)
    (putRead n) (fun a g x ⟨g1, g2, g3, g4⟩ => by
      obtain ⟨r, b⟩ := a
      have i1 := (find_set_ne (x := "X".toList) (by decide) (.num x)).trans g1
      have i2 := (find_set_ne (x := "X".toList) (by decide) (.num x)).trans g2
      have i3 := (find_set_ne (x := "X".toList) (by decide) (.num x)).trans g3
      have i5 := find_set g4 hX (.num x)
      have i4 := g4.set "X".toList (.num x)
      generalize g.set "X".toList (.num x) = g' at i1 i2 i3 i4 i5
      unfold putStep
      rw [b_when ((e_bin .eq (e_var i2) (e_num _)).trans (bin_eq _ _ _))]
      simp only [bool_zero]
      cases b with
      | true =>
        rw [if_pos (by decide), b_assign (e_two (e_var i1) (e_var i5)), b_nil]
        refine ⟨_, ⟨?_, ?_, ?_, ?_⟩, rfl⟩
        · rw [find_set i4 hR]
          simp [numsOf, facesFrom, putRead]
        · rw [find_set_ne (by decide), i2]; rfl
        · rw [find_set_ne (by decide), i3]
        · exact i4.set _ _
      | false =>
        rw [if_neg (by decide), b_when ((e_bin .ge (e_var i3) (e_var i5)).trans (bin_ge _ _ _))]
        simp only [bool_zero]
        by_cases h : n ≥ x
        · rw [if_neg (not_not.2 h), b_assign (e_two (e_var i1) (e_var i3)), b_assign (e_num _), b_nil, pure_bind, b_nil]
          dsimp only
          rw [pure_bind]
          dsimp only
          rw [b_assign (e_two (e_var ((find_set_ne (by decide) _).trans (find_set i4 hR _))) (e_var ((find_set_ne (by decide) _).trans ((find_set_ne (by decide) _).trans i5)))), b_nil]
          refine ⟨_, ⟨?_, ?_, ?_, ?_⟩, rfl⟩
          · rw [find_set ((i4.set _ _).set _ _) hR]
            simp [numsOf, facesFrom, putRead, h]
          · rw [find_set_ne (by decide), find_set (i4.set _ _) hW]
            simp [putRead, h, ofBool, decimal]
          · rw [find_set_ne (by decide), find_set_ne (by decide), find_set_ne (by decide), i3]
          · exact ((i4.set _ _).set _ _).set _ _
        · rw [if_pos h, b_nil, pure_bind]
          dsimp only
          rw [b_assign (e_two (e_var i1) (e_var i5)), b_nil]
          refine ⟨_, ⟨?_, ?_, ?_, ?_⟩, rfl⟩
          · rw [find_set i4 hR]
            simp [numsOf, facesFrom, putRead, h]
          · rw [find_set_ne (by decide), i2]
            simp [putRead, h]
          · rw [find_set_ne (by decide), i3]
          · exact i4.set _ _)
    s ([], false) (fr := (fr'.set "R".toList (.seq [])).set "W".toList (.num (decimal "0".toList)))
    ⟨(find_set_ne (by decide) _).trans (find_set hm hR _), find_set (hm.set _ _) hW _, (find_set_ne (by decide) _).trans ((find_set_ne (by decide) _).trans hN), (hm.set _ _).set _ _⟩
  rw [h2, pure_bind]
  dsimp only
  rw [b_when ((e_bin .eq (e_var h3) (e_num _)).trans (bin_eq _ _ _))]
  simp only [bool_zero]
  have key := putRead_eq n s []
  rcases hf : s.foldl (putRead n) ([], false) with ⟨r, b⟩
  rw [hf] at h1 h3 key
  rw [List.nil_append] at key
  cases b with
  | true =>
    rw [if_pos (show ¬ofBool true = decimal "0".toList by decide), b_result (e_var h1), putFn, ← key]
    rfl
  | false =>
    rw [if_neg (show ¬¬ofBool false = decimal "0".toList by decide), b_assign (e_two (e_var h1) (e_var h4)), b_nil, pure_bind]
    dsimp only
    rw [b_result (e_var (find_set h5 hR _)), putFn, ← key]
    simp [numsOf, facesFrom]

end PythonDice.Own
