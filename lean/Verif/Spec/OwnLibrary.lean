import Verif.Spec.Run

/-!
# Specification vocabulary: the function library written in the language itself

Definitions of functions, as they can be written in a program, that say what the functions of the library do.  Each is given by its head, its body and (in the
comment) its text; that the texts are read as these trees is proved beside the theorems.
-/

namespace Spec.Own

open PythonDice PythonDice.Compiler

/-- The variable of this name. -/
abbrev v (x : String) : Expr := .var x.toList

/-- The number. -/
abbrev k (n : String) : Expr := .num n.toList

/-- `{` `a` `..` `b` `}` -/
abbrev upto (a b : Expr) : Expr := .seq (.range a b .nil)

/-- `{` `a` `,` `b` `}` -/
abbrev two (a b : Expr) : Expr := .seq (.expr a (.expr b .nil))

/-- Statements one after the other. -/
abbrev blk : List Stmt → Block
  | [] => .nil
  | s :: ss => .cons s (blk ss)

/-- `if` without `else` -/
abbrev when (c : Expr) (ss : List Stmt) : Stmt := .cond c (blk ss) .done

/-- A word of the name of a function. -/
abbrev wd (x : String) : DefPart := .word x.toList

/-- A parameter with its type. -/
abbrev pm (x t : String) : DefPart := .typed x.toList t.toList

/-- `function: own absolute X:n { if X < 0 { result: -X } result: X }` -/
def absoluteHead : List DefPart := [wd "own", wd "absolute", pm "X" "n"]

/-- Its body. -/
def absoluteBody : Block := blk [when (.bin .lt (v "X") (k "0")) [.result (.unary .minus (v "X"))], .result (v "X")]

/-- `function: own S:s contains N:n { result: (S = N) > 0 }` -/
def containsHead : List DefPart := [wd "own", pm "S" "s", wd "contains", pm "N" "n"]

/-- Its body. -/
def containsBody : Block := blk [.result (.bin .gt (.group (.bin .eq (v "S") (v "N"))) (k "0"))]

/-- `function: own count V:s in S:s { C: 0 loop P over {1..#V} { C: C + (P@V = S) } result: C }` -/
def countHead : List DefPart := [wd "own", wd "count", pm "V" "s", wd "in", pm "S" "s"]

/-- What is repeated. -/
def countStep : Block := blk [.assign "C".toList (.bin .add (v "C") (.group (.bin .eq (.bin .at_ (v "P") (v "V")) (v "S"))))]

/-- Its body. -/
def countBody : Block := blk [.assign "C".toList (k "0"), .loop "P".toList (upto (k "1") (.hash (v "V"))) countStep, .result (v "C")]

/-- `function: own reverse S:s { R: {} loop P over {1..#S} { R: {P@S, R} } result: R }` -/
def reverseHead : List DefPart := [wd "own", wd "reverse", pm "S" "s"]

/-- What is repeated. -/
def reverseStep : Block := blk [.assign "R".toList (two (.bin .at_ (v "P") (v "S")) (v "R"))]

/-- Its body. -/
def reverseBody : Block := blk [.assign "R".toList (.seq .nil), .loop "P".toList (upto (k "1") (.hash (v "S"))) reverseStep, .result (v "R")]

/-- `function: own maximum of D:d { S: {D} result: #S @ S }` -/
def maximumHead : List DefPart := [wd "own", wd "maximum", wd "of", pm "D" "d"]

/-- Its body. -/
def maximumBody : Block := blk [.assign "S".toList (.seq (.expr (v "D") .nil)), .result (.bin .at_ (.hash (v "S")) (v "S"))]

/-- `function: own grow N:n top M:n of D:d by K:n { if N = M { if K > 0 { result: N + [own grow D top M of D by K - 1] } } result: N }` -/
def growHead : List DefPart := [wd "own", wd "grow", pm "N" "n", wd "top", pm "M" "n", wd "of", pm "D" "d", wd "by", pm "K" "n"]

/-- `[own grow D top M of D by K - 1]` -/
def growCall : CallParts :=
  .word "own".toList (.word "grow".toList (.arg (v "D") (.word "top".toList (.arg (v "M") (.word "of".toList (.arg (v "D")
    (.word "by".toList (.arg (.bin .sub (v "K") (k "1")) .nil))))))))

/-- Its body. -/
def growBody : Block :=
  blk [when (.bin .eq (v "N") (v "M")) [when (.bin .gt (v "K") (k "0")) [.result (.bin .add (v "N") (.call growCall))]], .result (v "N")]

/-- `function: own explode D:d by K:n { result: [own grow D top [own maximum of D] of D by K] }` -/
def explodeHead : List DefPart := [wd "own", wd "explode", pm "D" "d", wd "by", pm "K" "n"]

/-- `[own maximum of D]` -/
def maximumCall : CallParts := .word "own".toList (.word "maximum".toList (.word "of".toList (.arg (v "D") .nil)))

/-- `[own grow D top [own maximum of D] of D by K]` -/
def explodeCall : CallParts :=
  .word "own".toList (.word "grow".toList (.arg (v "D") (.word "top".toList (.arg (.call maximumCall) (.word "of".toList (.arg (v "D")
    (.word "by".toList (.arg (v "K") .nil))))))))

/-- Its body. -/
def explodeBody : Block := blk [.result (.call explodeCall)]

/-- `function: own highest N:n of D:d { result: {1..N} @ D }` -/
def highestHead : List DefPart := [wd "own", wd "highest", pm "N" "n", wd "of", pm "D" "d"]

/-- Its body. -/
def highestBody : Block := blk [.result (.bin .at_ (upto (k "1") (v "N")) (v "D"))]

/-- `function: own lowest N:n of D:d { result: {#D - N + 1..#D} @ D }` -/
def lowestHead : List DefPart := [wd "own", wd "lowest", pm "N" "n", wd "of", pm "D" "d"]

/-- Its body. -/
def lowestBody : Block :=
  blk [.result (.bin .at_ (upto (.bin .add (.bin .sub (.hash (v "D")) (v "N")) (k "1")) (.hash (v "D"))) (v "D"))]

/-- `function: own middle N:n of D:d { if N = #D { result: D } if N = 1 { result: (1 + (#D - 1) / 2) @ D } F: 1 + (#D - N) / 2 result: {F..F + N - 1} @ D }` -/
def middleHead : List DefPart := [wd "own", wd "middle", pm "N" "n", wd "of", pm "D" "d"]

/-- Its body. -/
def middleBody : Block :=
  blk [when (.bin .eq (v "N") (.hash (v "D"))) [.result (v "D")],
    when (.bin .eq (v "N") (k "1")) [.result (.bin .at_ (.group (.bin .add (k "1") (.bin .div (.group (.bin .sub (.hash (v "D")) (k "1"))) (k "2")))) (v "D"))],
    .assign "F".toList (.bin .add (k "1") (.bin .div (.group (.bin .sub (.hash (v "D")) (v "N"))) (k "2"))),
    .result (.bin .at_ (upto (v "F") (.bin .sub (.bin .add (v "F") (v "N")) (k "1"))) (v "D"))]

/-- `function: own highest of A:n and B:n { if A > B { result: A } result: B }` -/
def greaterHead : List DefPart := [wd "own", wd "highest", wd "of", pm "A" "n", wd "and", pm "B" "n"]

/-- Its body. -/
def greaterBody : Block := blk [when (.bin .gt (v "A") (v "B")) [.result (v "A")], .result (v "B")]

/-- `function: own lowest of A:n and B:n { if A < B { result: A } result: B }` -/
def smallerHead : List DefPart := [wd "own", wd "lowest", wd "of", pm "A" "n", wd "and", pm "B" "n"]

/-- Its body. -/
def smallerBody : Block := blk [when (.bin .lt (v "A") (v "B")) [.result (v "A")], .result (v "B")]

/-- `function: own put N:n into S:s { R: {} W: 0 loop X over S { if W = 0 { if N >= X { R: {R, N} W: 1 } } R: {R, X} } if W = 0 { R: {R, N} } result: R }` -/
def putHead : List DefPart := [wd "own", wd "put", pm "N" "n", wd "into", pm "S" "s"]

/-- What is repeated. -/
def putStep : Block :=
  blk [when (.bin .eq (v "W") (k "0")) [when (.bin .ge (v "N") (v "X")) [.assign "R".toList (two (v "R") (v "N")), .assign "W".toList (k "1")]],
    .assign "R".toList (two (v "R") (v "X"))]

/-- Its body. -/
def putBody : Block :=
  blk [.assign "R".toList (.seq .nil), .assign "W".toList (k "0"), .loop "X".toList (v "S") putStep,
    when (.bin .eq (v "W") (k "0")) [.assign "R".toList (two (v "R") (v "N"))], .result (v "R")]

/-- `function: own sort S:s { R: {} loop X over S { R: [own put X into R] } result: R }` -/
def sortHead : List DefPart := [wd "own", wd "sort", pm "S" "s"]

/-- `[own put X into R]` -/
def putCall : CallParts := .word "own".toList (.word "put".toList (.arg (v "X") (.word "into".toList (.arg (v "R") .nil))))

/-- What is repeated. -/
def sortStep : Block := blk [.assign "R".toList (.call putCall)]

/-- Its body. -/
def sortBody : Block := blk [.assign "R".toList (.seq .nil), .loop "X".toList (v "S") sortStep, .result (v "R")]

/-- In this state the first computation does what the second does: it gives the same, and if it does not fail leaves the same state. -/
def DoesAs (w : World) (m m' : M Obj) : Prop := (m w).1 = (m' w).1 ∧ ∀ o, (m' w).1 = .ok o → (m w).2 = (m' w).2

end Spec.Own
