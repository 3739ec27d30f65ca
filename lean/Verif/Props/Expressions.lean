import Verif.Proofs.Fuel

/-!
# C35: compiled expressions keep their structure

The texts are read by `Spec.Py.lex` and `Spec.Py.parse`, which follow Python's own precedences.  `Spec.mean` is the tree that an expression
stands for; it knows no precedences.  Four kinds of operands are emitted without the parentheses that they need.
-/

namespace PythonDice

open Spec Compiler
open Spec.Py (ReadsAs IntLiteral keywords)

/-- C35, except for the operands excluded by `OperandsOK`: Python reads the emitted text of an expression as the tree that the expression
stands for, and in no other way.  Numbers must have no leading zeros, names of functions must not be keywords, literals must be free of the
characters of C39. -/
theorem C35_structure_partial (fl : Flags) (e : Expr) (hg : Grammatical e) (hok : ExprOK Char.isDigit PlainChar e)
    (hint : ∀ n, SubExpr (.num n) e → IntLiteral n) (hname : ∀ cs, SubExpr (.call cs) e → pyName fl.libConflict (callSig cs) ∉ keywords)
    (hop : ∀ op l r, SubExpr (.bin op l r) e → OperandsOK fl.opOnInt op l r) (f : Py.Expr) :
    ReadsAs (e.emit fl) f ↔ f = mean fl.style e := by
  obtain ⟨N, hN⟩ := ((good_expr fl e hg hop).le (pyLevel_le fl e) (Nat.zero_le _)).parses [] (stops_nil 0)
  obtain ⟨M, hM⟩ := lexOK_expr fl e hok ⟨hint, hname⟩ [] [] boundary_nil lexes_nil
  simp only [List.append_nil] at hN hM
  refine readsAs_of (n := max N M) ?_ f
  rw [hM _ (le_max_right _ _), Option.bind_some]
  exact hN _ (le_max_left _ _)

/-! ## Examples -/

mutual

/-- A test of all subexpressions, for examples. -/
def allSub (p : Expr → Bool) : Expr → Bool
  | .group e => p (.group e) && allSub p e
  | .bin op l r => p (.bin op l r) && (allSub p l && allSub p r)
  | .ndm l r => p (.ndm l r) && (allSub p l && allSub p r)
  | .dm r => p (.dm r) && allSub p r
  | .unary op e => p (.unary op e) && allSub p e
  | .hash e => p (.hash e) && allSub p e
  | .seq es => p (.seq es) && allSubE p es
  | .call cs => p (.call cs) && allSubC p cs
  | e => p e

/-- The same of elements. -/
def allSubE (p : Expr → Bool) : Elems → Bool
  | .nil => true
  | .expr e es => allSub p e && allSubE p es
  | .range l r es => allSub p l && (allSub p r && allSubE p es)

/-- The same of arguments. -/
def allSubC (p : Expr → Bool) : CallParts → Bool
  | .nil => true
  | .word _ cs => allSubC p cs
  | .arg e cs => allSub p e && allSubC p cs

end

mutual

theorem allSub_self {p : Expr → Bool} {e : Expr} (h : allSub p e = true) : p e = true := by
  cases e <;> simp only [allSub, Bool.and_eq_true] at h <;> first | exact h.1 | exact h

theorem allSub_sound {p : Expr → Bool} {s e : Expr} (h : allSub p e = true) (hs : SubExpr s e) : p s = true := by
  cases hs with
  | refl => exact allSub_self h
  | group hs => simp only [allSub, Bool.and_eq_true] at h; exact allSub_sound h.2 hs
  | binL hs => simp only [allSub, Bool.and_eq_true] at h; exact allSub_sound h.2.1 hs
  | binR hs => simp only [allSub, Bool.and_eq_true] at h; exact allSub_sound h.2.2 hs
  | ndmL hs => simp only [allSub, Bool.and_eq_true] at h; exact allSub_sound h.2.1 hs
  | ndmR hs => simp only [allSub, Bool.and_eq_true] at h; exact allSub_sound h.2.2 hs
  | dm hs => simp only [allSub, Bool.and_eq_true] at h; exact allSub_sound h.2 hs
  | unary hs => simp only [allSub, Bool.and_eq_true] at h; exact allSub_sound h.2 hs
  | hash hs => simp only [allSub, Bool.and_eq_true] at h; exact allSub_sound h.2 hs
  | seq hs => simp only [allSub, Bool.and_eq_true] at h; exact allSubE_sound h.2 hs
  | call hs => simp only [allSub, Bool.and_eq_true] at h; exact allSubC_sound h.2 hs

theorem allSubE_sound {p : Expr → Bool} {s : Expr} {es : Elems} (h : allSubE p es = true) (hs : SubElem s es) : p s = true := by
  cases hs with
  | expr hs => simp only [allSubE, Bool.and_eq_true] at h; exact allSub_sound h.1 hs
  | rangeL hs => simp only [allSubE, Bool.and_eq_true] at h; exact allSub_sound h.1 hs
  | rangeR hs => simp only [allSubE, Bool.and_eq_true] at h; exact allSub_sound h.2.1 hs
  | afterExpr hs => simp only [allSubE, Bool.and_eq_true] at h; exact allSubE_sound h.2 hs
  | afterRange hs => simp only [allSubE, Bool.and_eq_true] at h; exact allSubE_sound h.2.2 hs

theorem allSubC_sound {p : Expr → Bool} {s : Expr} {cs : CallParts} (h : allSubC p cs = true) (hs : SubArg s cs) : p s = true := by
  cases hs with
  | arg hs => simp only [allSubC, Bool.and_eq_true] at h; exact allSub_sound h.1 hs
  | afterWord hs => simp only [allSubC] at h; exact allSubC_sound h hs
  | afterArg hs => simp only [allSubC, Bool.and_eq_true] at h; exact allSubC_sound h.2 hs

end

/-- `2 * (A + 3d6) - -1 > #{1, 2..3}` -/
def busy : Expr :=
  .bin .gt (.bin .sub (.bin .mul (.num "2".toList) (.group (.bin .add (.var "A".toList) (.ndm (.num "3".toList) (.num "6".toList)))))
    (.unary .minus (.num "1".toList))) (.hash (.seq (.expr (.num "1".toList) (.range (.num "2".toList) (.num "3".toList) .nil))))

example : busy.emit {} = "2 * (A + roll(3, 6)) - -1 > len(get_seq([1, myrange(2, 3)]))".toList := by decide +kernel

/-- The conditions on tokens and operands, as a test. -/
def clean (fl : Flags) : Expr → Bool
  | .num n => decide (IntLiteral n)
  | .call cs => decide (pyName fl.libConflict (callSig cs) ∉ keywords)
  | .bin op l r => decide ((opLevel op = 3 → level l ≠ 3) ∧ (fl.opOnInt = false → op = .and_ ∨ op = .or_ → level l ≠ 3 ∧ level r ≠ 3) ∧
      (op = .pow → level l ≠ 6 ∧ unaryOf l = none))
  | _ => true

theorem C35_clean (fl : Flags) (e : Expr) (hg : Grammatical e) (hok : ExprOK Char.isDigit PlainChar e) (hc : allSub (clean fl) e = true)
    (f : Py.Expr) : ReadsAs (e.emit fl) f ↔ f = mean fl.style e := by
  refine C35_structure_partial fl e hg hok ?_ ?_ ?_ f
  · exact fun n hn => of_decide_eq_true (allSub_sound hc hn)
  · exact fun cs hn => of_decide_eq_true (allSub_sound hc hn)
  · intro op l r hs
    have := of_decide_eq_true (allSub_sound hc hs)
    exact ⟨this.1, this.2.1, fun h => ⟨(this.2.2 h).1, fun u hu => by rw [(this.2.2 h).2] at hu; cases hu⟩⟩

example : ReadsAs "2 * (A + roll(3, 6)) - -1 > len(get_seq([1, myrange(2, 3)]))".toList
    (.cmp false ">".toList
      (.bin "-".toList (.bin "*".toList (.int "2".toList) (.bin "+".toList (.name "A".toList) (callOf "roll" [.int "3".toList, .int "6".toList])))
        (.unary "-".toList (.int "1".toList)))
      (callOf "len" [callOf "get_seq" [.list (toArgs [.int "1".toList, callOf "myrange" [.int "2".toList, .int "3".toList]])]])) := by
  have h := (C35_clean {} busy (by simp [busy, Grammatical, GrammaticalE, opLevel, level])
    (by simp only [busy, ExprOK, ElemsOK, Digits, VarName]; decide) (by decide +kernel)
    (.cmp false ">".toList
      (.bin "-".toList (.bin "*".toList (.int "2".toList) (.bin "+".toList (.name "A".toList) (callOf "roll" [.int "3".toList, .int "6".toList])))
        (.unary "-".toList (.int "1".toList)))
      (callOf "len" [callOf "get_seq" [.list (toArgs [.int "1".toList, callOf "myrange" [.int "2".toList, .int "3".toList]])]]))).2
    (by decide +kernel)
  rwa [show busy.emit {} = "2 * (A + roll(3, 6)) - -1 > len(get_seq([1, myrange(2, 3)]))".toList by decide +kernel] at h

/-- The reading of a text by computation. -/
theorem reads_by {s : List Char} {e : Py.Expr} (n : ℕ) (h : decide ((Py.lex n s).bind (Py.parse n 0) = some (e, [])) = true) (f : Py.Expr) :
    ReadsAs s f ↔ f = e := readsAs_of (of_decide_eq_true h) f

/-! ## The exceptions -/

/-- `1 < 2 < 3` is emitted as a chain, which Python reads as `1 < 2 and 2 < 3`. -/
theorem C35_chain_counterexample :
    let e : Expr := .bin .lt (.bin .lt (.num "1".toList) (.num "2".toList)) (.num "3".toList)
    Grammatical e ∧ e.emit {} = "1 < 2 < 3".toList ∧ ¬ReadsAs (e.emit {}) (mean ({} : Flags).style e) ∧
      ReadsAs (e.emit {}) (.cmp true "<".toList (.cmp false "<".toList (.int "1".toList) (.int "2".toList)) (.int "3".toList)) := by
  intro e
  have h := reads_by (s := e.emit {})
    (e := .cmp true "<".toList (.cmp false "<".toList (.int "1".toList) (.int "2".toList)) (.int "3".toList)) 20 (by decide +kernel)
  refine ⟨by simp [e, Grammatical, opLevel, level], by decide +kernel, fun hr => ?_, (h _).2 rfl⟩
  exact absurd ((h _).1 hr) (by decide +kernel)

/-- `A = 1 & B = 2` is emitted without parentheses; Python reads `A == (1 & B) == 2`, a chain. -/
theorem C35_logic_counterexample :
    let e : Expr := .bin .and_ (.bin .eq (.var "A".toList) (.num "1".toList)) (.bin .eq (.var "B".toList) (.num "2".toList))
    Grammatical e ∧ e.emit {} = "A == 1 & B == 2".toList ∧ ¬ReadsAs (e.emit {}) (mean ({} : Flags).style e) ∧
      ReadsAs (e.emit {}) (.cmp true "==".toList (.cmp false "==".toList (.name "A".toList)
        (.bin "&".toList (.int "1".toList) (.name "B".toList))) (.int "2".toList)) := by
  intro e
  have h := reads_by (s := e.emit {}) (e := .cmp true "==".toList (.cmp false "==".toList (.name "A".toList)
    (.bin "&".toList (.int "1".toList) (.name "B".toList))) (.int "2".toList)) 20 (by decide +kernel)
  refine ⟨by simp [e, Grammatical, opLevel, level], by decide +kernel, fun hr => ?_, (h _).2 rfl⟩
  exact absurd ((h _).1 hr) (by decide +kernel)

/-- `2 ^ 3 ^ 2` associates to the left, the text to the right. -/
theorem C35_power_counterexample :
    let e : Expr := .bin .pow (.bin .pow (.num "2".toList) (.num "3".toList)) (.num "2".toList)
    Grammatical e ∧ e.emit {} = "2 ** 3 ** 2".toList ∧ ¬ReadsAs (e.emit {}) (mean ({} : Flags).style e) ∧
      ReadsAs (e.emit {}) (.bin "**".toList (.int "2".toList) (.bin "**".toList (.int "3".toList) (.int "2".toList))) := by
  intro e
  have h := reads_by (s := e.emit {}) (e := .bin "**".toList (.int "2".toList) (.bin "**".toList (.int "3".toList) (.int "2".toList))) 20
    (by decide +kernel)
  refine ⟨by simp [e, Grammatical, opLevel, level], by decide +kernel, fun hr => ?_, (h _).2 rfl⟩
  exact absurd ((h _).1 hr) (by decide +kernel)

/-- `-2 ^ 2` is the square of `-2`; the text is the opposite of the square of `2`. -/
theorem C35_sign_counterexample :
    let e : Expr := .bin .pow (.unary .minus (.num "2".toList)) (.num "2".toList)
    Grammatical e ∧ e.emit {} = "-2 ** 2".toList ∧ ¬ReadsAs (e.emit {}) (mean ({} : Flags).style e) ∧
      ReadsAs (e.emit {}) (.unary "-".toList (.bin "**".toList (.int "2".toList) (.int "2".toList))) := by
  intro e
  have h := reads_by (s := e.emit {}) (e := .unary "-".toList (.bin "**".toList (.int "2".toList) (.int "2".toList))) 20
    (by decide +kernel)
  refine ⟨by simp [e, Grammatical, opLevel, level], by decide +kernel, fun hr => ?_, (h _).2 rfl⟩
  exact absurd ((h _).1 hr) (by decide +kernel)

/-- `007` is a number, and no Python expression. -/
theorem C35_zeros_counterexample :
    ExprOK Char.isDigit PlainChar (.num "007".toList) ∧ ∀ fl f, ¬ReadsAs (Expr.emit fl (.num "007".toList)) f := by
  refine ⟨by simp only [ExprOK, Digits]; decide, fun fl f => ?_⟩
  rintro ⟨N, hN⟩
  obtain ⟨ts, h, -⟩ := hN (N + 1) (by omega)
  have : Py.lex (N + 1) "007".toList = none := by simp [Py.lex, Py.nameStart, IntLiteral]
  have h : Py.lex (N + 1) "007".toList = some ts := h
  rw [this] at h
  cases h

/-- A function may be called `is`; a call of it is no Python expression. -/
theorem C35_keyword_counterexample :
    let e : Expr := .call (.word "is".toList .nil)
    ExprOK Char.isDigit PlainChar e ∧ Grammatical e ∧ e.emit {} = "is()".toList ∧ ∀ f, ¬ReadsAs (e.emit {}) f := by
  intro e
  refine ⟨?_, by simp [e, Grammatical, GrammaticalC], by decide +kernel, fun f => ?_⟩
  · exact ⟨by simp, ⟨by decide, by decide⟩, trivial⟩
  rintro ⟨N, hN⟩
  obtain ⟨ts, h, -⟩ := hN (N + 1) (by omega)
  have : Py.lex (N + 1) "is()".toList = none := by simp [Py.lex, Py.nameStart, keywords, Py.nameChar]
  have h : Py.lex (N + 1) "is()".toList = some ts := h
  rw [this] at h
  cases h

end PythonDice
