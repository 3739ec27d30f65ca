import Verif.Spec.Run
import Verif.Spec.Law

/-!
# Specification vocabulary: what a program means, by enumeration

Dice are lists of outcomes with probabilities, as rational numbers: every possible course of events is listed, nothing is added up, nothing is
rounded, there is no state.  An operation on dice is the operation on every pair of outcomes; `n` dice are all `n`-tuples of outcomes; a function
called with dice for numbers is called for every combination.  `none` is: not described here (or an error).
-/

namespace Spec.Naive

open PythonDice (Ty)
open PythonDice.Compiler

variable {α β : Type}

/-! ## Laws -/

/-- Outcomes with probabilities; the same outcome may occur several times. -/
abbrev Law := List (ℤ × ℚ)

/-- The mean of a function of the outcome. -/
def mean (l : List (α × ℚ)) (f : α → ℚ) : ℚ := (l.map fun x => x.2 * f x.1).sum

/-- The probability of an outcome. -/
def prob (l : Law) (v : ℤ) : ℚ := ((l.filter fun x => x.1 = v).map fun x => x.2).sum

/-- A certain outcome. -/
def sure (x : α) : List (α × ℚ) := [(x, 1)]

/-- A function of the outcome. -/
def push (f : α → β) (l : List (α × ℚ)) : List (β × ℚ) := l.map fun x => (f x.1, x.2)

/-- First `l`, then what depends on its outcome. -/
def andThen (l : List (α × ℚ)) (k : α → List (β × ℚ)) : List (β × ℚ) :=
  l.flatMap fun x => (k x.1).map fun y => (y.1, x.2 * y.2)

/-- All with the same probability. -/
def uniform (s : List ℤ) : Law := s.map fun x => (x, 1 / (s.length : ℚ))

/-- `n` independent outcomes. -/
def draws (l : Law) : ℕ → List (List ℤ × ℚ)
  | 0 => sure []
  | n + 1 => andThen l fun x => push (x :: ·) (draws l n)

/-- The outcomes in ascending order, each of them once. -/
def support (l : Law) : List ℤ := ascending (l.map fun x => x.1).dedup

/-! ## Values -/

/-- A number, a sequence, a die, or nothing.  A die may be a pool: the sum of so many dice of that law; otherwise it is not known what it is made
of. -/
inductive Val
  | num (n : ℤ)
  | seq (s : List ℤ)
  | die (law : Law) (pool : Option (ℕ × Law))
  | blank (special : Bool)
  deriving DecidableEq

/-- A single die. -/
def one (l : Law) : Val := .die l (some (1, l))

/-- `a, …, b` -/
def interval (a b : ℤ) : List ℤ := (List.range (b + 1 - a).toNat).map fun i : ℕ => a + i

/-! ## Rolling -/

/-- What a value means as a die: `d6` has the faces 1 to 6, `d{1,1,2}` those of the sequence. -/
def faces : Val → Option Law
  | .num m => some (if 0 < m then uniform (interval 1 m) else if m = 0 then sure 0 else uniform (interval m (-1)))
  | .seq s => if s = [] then none else some (uniform s)
  | .die l _ => some l
  | .blank _ => none

/-- `k` dice, counted negatively if `k` is negative. -/
def rolls (k : ℤ) (b : Law) : Law := push (fun xs => if k < 0 then -xs.sum else xs.sum) (draws b k.natAbs)

/-- `k` dice of the kind `d`, with law `b`. -/
def rollNum (k : ℤ) (d : Val) (b : Law) : Val :=
  if k = 1 then match d with
    | .die l p => .die l p
    | _ => one b
  else if 2 ≤ k then .die (rolls k b) (some (k.toNat, b)) else one (rolls k b)

/-- `n d m` -/
def rollVal (n d : Val) : Val :=
  match d, n with
  | .blank _, _ => .blank false
  | _, .blank _ => .blank true
  | d, n =>
    match faces d with
    | none => .blank false
    | some b =>
      match n with
      | .num k => rollNum k d b
      | .seq s => rollNum s.sum d b
      | .die x _ => .die (andThen x fun k => rolls k b) none
      | .blank _ => .blank true

/-! ## Operations -/

/-- Is it a comparison? -/
def isCmp : BinOp → Bool
  | .lt | .gt | .eq | .ne | .le | .ge => true
  | _ => false

/-- Comparisons. -/
def test : BinOp → ℤ → ℤ → Bool
  | .lt, x, y => decide (x < y)
  | .gt, x, y => decide (x > y)
  | .eq, x, y => decide (x = y)
  | .ne, x, y => decide (x ≠ y)
  | .le, x, y => decide (x ≤ y)
  | .ge, x, y => decide (x ≥ y)
  | _, _, _ => false

/-- 1 for true. -/
def bit (b : Bool) : ℤ := if b then 1 else 0

/-- Division by 0 and negative powers are not described here. -/
def possible : BinOp → ℤ → ℤ → Bool
  | .div, _, y => decide (y ≠ 0)
  | .pow, _, y => decide (0 ≤ y)
  | _, _, _ => true

/-- Operations on numbers.  Division rounds down. -/
def arith : BinOp → ℤ → ℤ → ℤ
  | .add, x, y => x + y
  | .sub, x, y => x - y
  | .mul, x, y => x * y
  | .div, x, y => x.fdiv y
  | .pow, x, y => x ^ y.toNat
  | .and_, x, y => bit (decide (x ≠ 0 ∧ y ≠ 0))
  | .or_, x, y => bit (decide (x ≠ 0 ∨ y ≠ 0))
  | op, x, y => bit (test op x y)

/-- Operations on two numbers; if numbers are those of Python, `&` and `|` are bitwise. -/
def arithNum (ints : Bool) (op : BinOp) (x y : ℤ) : ℤ :=
  match ints, op with
  | false, .and_ => Int.land x y
  | false, .or_ => Int.lor x y
  | _, op => arith op x y

/-- Comparison of sequences: all places, where an absent place is below all numbers. -/
def seqTest (op : BinOp) (s t : List ℤ) : Bool :=
  match op with
  | .eq => decide (s = t)
  | .ne => decide (s ≠ t)
  | .lt | .le => decide (s.length ≤ t.length) && (s.zip t).all fun p => test op p.1 p.2
  | .gt | .ge => decide (t.length ≤ s.length) && (s.zip t).all fun p => test op p.1 p.2
  | _ => false

/-- An operation on a blank and something else. -/
def withBlank (op : BinOp) (special : Bool) (other : Val) : Val :=
  match op with
  | .add | .sub => if special then .blank special else other
  | .and_ => if special then .num 1 else .blank special
  | .or_ => if special then .num 1 else match other with
    | .blank _ => .blank special
    | o => o
  | .lt | .gt | .eq | .ne | .le | .ge => if special then .num 1 else .blank special
  | _ => .blank special

/-- Minus a value. -/
def minus : Val → Val
  | .num n => .num (-n)
  | .seq s => .num (-s.sum)
  | .die l _ => one (push (fun x => -x) l)
  | .blank b => .blank b

/-- Binary operations other than `@`: on dice the operation on every pair of outcomes, where sequences count as their sums; without dice,
comparing a sequence with a number is counting. -/
def binary (ints : Bool) (op : BinOp) : Val → Val → Val
  | .num x, .num y => .num (arithNum ints op x y)
  | .num x, .seq t => .num (if isCmp op then (t.countP fun y => test op x y : ℕ) else arith op x t.sum)
  | .seq s, .num y => .num (if isCmp op then (s.countP fun x => test op x y : ℕ) else arith op s.sum y)
  | .seq s, .seq t => .num (if isCmp op then bit (seqTest op s t) else arith op s.sum t.sum)
  | .num x, .die m _ => one (push (fun y => arith op x y) m)
  | .seq s, .die m _ => one (push (fun y => arith op s.sum y) m)
  | .die l _, .num y => one (push (fun x => arith op x y) l)
  | .die l _, .seq t => one (push (fun x => arith op x t.sum) l)
  | .die l _, .die m _ => one (andThen l fun x => push (fun y => arith op x y) m)
  | .num x, .blank b => withBlank op b (.num x)
  | .seq s, .blank b => withBlank op b (.num s.sum)
  | .die l p, .blank b => withBlank op b (.die l p)
  | .blank b, o => if op = .sub ∧ b = false then minus o else withBlank op b o

/-- `!`: is it zero?  Of a die this is not asked of every outcome but of all of them together: is it certainly 0? -/
def negate (ints : Bool) : Val → Val
  | .num n => .num (if ints then bit (decide (n = 0)) else -n - 1)
  | .seq s => .num (bit (decide (s.sum = 0)))
  | .die l _ => one (sure (bit (l.all fun x => decide (x.1 = 0))))
  | .blank b => if b then .num 1 else .blank b

/-- Unary operations. -/
def unary (ints : Bool) : UnOp → Val → Option Val
  | .plus, .seq _ => none
  | .plus, v => some v
  | .minus, .seq _ => none
  | .minus, v => some (minus v)
  | .not_, v => some (negate ints v)

/-- The decimal digits. -/
def digits (n : ℤ) : List ℤ := if n = 0 then [0] else ((Nat.digits 10 n.natAbs).map fun d : ℕ => (d : ℤ)).reverse

/-- How many: elements, dice. -/
def size : Val → Option ℕ
  | .num n => some (digits n).length
  | .seq s => some s.length
  | .die _ (some (k, _)) => some k
  | .die _ none => none
  | .blank b => some (if b then 1 else 0)

/-- `#` -/
def hash (ints : Bool) : Val → Option Val
  | .num n => if ints then some (.num (digits n).length) else none
  | v => (size v).map fun n : ℕ => .num (n : ℤ)

/-- The `i`-th element, counting from 1; outside there are zeros. -/
def elemAt (s : List ℤ) (i : ℤ) : ℤ := if 1 ≤ i then s.getD (i - 1).toNat 0 else 0

/-- The sum of the elements at these places. -/
def sumAt (s is : List ℤ) : ℤ := (is.map fun i => elemAt s i).sum

/-- The dice at these places, the highest being first, or for a single place, if it is set so (`low`), the lowest.  One place without a die is the
number 0. -/
def pick (low : Bool) (is : List ℤ) : Val → Option Val
  | .die _ (some (n, b)) =>
    match is with
    | [i] => if 1 ≤ i ∧ i ≤ n then some (one (push (fun xs => elemAt (if low then ascending xs else descending xs) i) (draws b n))) else some (.num 0)
    | is => some (one (push (fun xs => sumAt (descending xs) is) (draws b n)))
  | _ => none

/-- `@` -/
def at' (low ints : Bool) : Val → Val → Option Val
  | .num i, .num n => if ints ∧ 0 ≤ n then some (.num (elemAt (digits n) i)) else none
  | .num i, .seq s => some (.num (elemAt s i))
  | .seq is, .num n => if 0 ≤ n then some (.num (sumAt (digits n) is)) else none
  | .seq is, .seq s => some (.num (sumAt s is))
  | .num i, .die l p => pick low [i] (.die l p)
  | .seq is, .die l p => pick low is (.die l p)
  | .num i, .blank b => some (if b ∧ i ≠ 1 then .num 0 else .blank b)
  | .seq is, .blank b => some (if b ∧ ∃ i ∈ is, i ≠ 1 then .num 0 else .blank b)
  | _, _ => none

/-- A sequence of values: numbers first, then the outcomes of dice. -/
def seqOf (vs : List Val) : Val :=
  .seq ((vs.flatMap fun
    | .num n => [n]
    | .seq s => s
    | _ => []) ++ vs.flatMap fun
    | .die l _ => support l
    | _ => [])

/-- `a .. b` -/
def rangeVal : Val → Val → Option Val
  | .num a, .num b => some (.seq (interval a b))
  | _, _ => none

/-- A condition. -/
def truth : Val → Option Bool
  | .num n => some (decide (n ≠ 0))
  | .seq s => some (decide (s ≠ []))
  | _ => none

/-! ## Functions -/

/-- A blank given for a number or a sequence. -/
def nothing : Option Ty × Val → Bool
  | (some .N, .blank _) => true
  | (some .S, .blank _) => true
  | _ => false

/-- A die given for a number or a sequence. -/
def random : Option Ty × Val → Bool
  | (some .N, .die _ _) => true
  | (some .S, .die _ _) => true
  | _ => false

/-- An argument that is not random, converted to the type of the parameter. -/
def convert : Option Ty × Val → Val
  | (some .N, .seq s) => .num s.sum
  | (some .S, .num n) => .seq [n]
  | (some .D, .num n) => one (sure n)
  | (some .D, .seq s) => one (if s = [] then sure 0 else uniform s)
  | (_, v) => v

/-- What an argument can be: a die given for a number is any of its outcomes, a die given for a sequence is any roll of its pool, in descending
order. -/
def choices : Option Ty × Val → Option (List (Val × ℚ))
  | (some .N, .die l _) => some (push .num l)
  | (some .S, .die _ (some (k, b))) => some (push (fun xs => .seq (descending xs)) (draws b k))
  | (some .S, .die _ none) => none
  | a => some (sure (convert a))

/-- What the arguments can be. -/
def allChoices : List (Option Ty × Val) → Option (List (List Val × ℚ))
  | [] => some (sure [])
  | a :: as => do
    let c ← choices a
    let cs ← allChoices as
    some (andThen c fun v => push (v :: ·) cs)

/-- A result as a law; blanks have none. -/
def outcomes : Option Val → Law
  | some (.num n) => sure n
  | some (.seq s) => sure s.sum
  | some (.die l _) => l
  | _ => []

/-- All results together, given that there is one. -/
def mixed (rs : List (Option Val × ℚ)) : Val :=
  let l := andThen rs outcomes
  if l = [] then .blank false else one (l.map fun x => (x.1, x.2 / mean l fun _ => 1))

/-- Calling a function for all choices. -/
def callAll (f : List Val → Option (Option Val)) : List (List Val × ℚ) → Option (List (Option Val × ℚ))
  | [] => some []
  | c :: cs => do
    let r ← f c.1
    let rs ← callAll f cs
    some ((r, c.2) :: rs)

/-- Calling a function: for every choice of the arguments if they are random. -/
def cast (f : List Val → Option (Option Val)) (args : List (Option Ty × Val)) : Option Val :=
  if args.any nothing then some (.blank true)
  else if args.any random then do
    let cs ← allChoices args
    let rs ← callAll f cs
    some (mixed rs)
  else do
    let r ← f (args.map convert)
    some (r.getD (.blank false))

/-- Rolling again on the outcome `mx`, at most so often, and adding up. -/
def explodeLaw (l : Law) (mx : ℤ) : ℕ → Law
  | 0 => l
  | e + 1 => andThen l fun x => if x = mx then push (x + ·) (explodeLaw l mx e) else sure x

/-- The highest number; 0 if there is none. -/
def highest (s : List ℤ) : ℤ := (descending s).headD 0

/-- `[explode d]` -/
def explodeVal (e : ℕ) (d : Val) : Val :=
  match convert (some .D, d) with
  | .die l _ => one (explodeLaw l (highest (support l)) e)
  | _ => .blank true

/-- `[maximum of d]` -/
def maximumVal (d : Val) : Val :=
  match convert (some .D, d) with
  | .die l _ => .num (highest (support l))
  | _ => .num 0

/-- What the values of expressions depend on: how often dice explode, and whether the lowest die is the first. -/
structure Table where
  explode : ℕ
  low : Bool

/-- What a function name stands for; the functions of the library are told these settings. -/
inductive Fun
  | user (d : List DefPart) (body : Block)
  | lib (f : Table → List Val → Option Val)

/-- A library function of one parameter. -/
def lib1 (t : Ty) (f : Val → Option Val) : Fun := .lib fun _ l => match l with
  | [a] => cast (fun
    | [a] => (f a).map some
    | _ => none) [(some t, a)]
  | _ => none

/-- A library function of two parameters. -/
def lib2 (t u : Ty) (f : Val → Val → Option Val) : Fun := .lib fun _ l => match l with
  | [a, b] => cast (fun
    | [a, b] => (f a b).map some
    | _ => none) [(some t, a), (some u, b)]
  | _ => none

/-- A library function that selects dice. -/
def libSel (f : Bool → Val → Val → Option Val) : Fun := .lib fun t l => match l with
  | [a, b] => cast (fun
    | [a, b] => (f t.low a b).map some
    | _ => none) [(some .N, a), (some .D, b)]
  | _ => none

/-- `[absolute n]` -/
def absVal : Val → Option Val
  | .num n => some (.num |n|)
  | _ => none

/-- `[s contains n]` -/
def containsVal : Val → Val → Option Val
  | .seq s, .num n => some (.num (bit (decide (n ∈ s))))
  | _, _ => none

/-- `[count vs in s]` -/
def countVal : Val → Val → Option Val
  | .seq vs, .seq s => some (.num ((vs.map fun v => s.count v).sum : ℕ))
  | _, _ => none

/-- `[highest n of d]` -/
def highestVal (low : Bool) : Val → Val → Option Val
  | .num n, d => at' low false (.seq (interval 1 n)) d
  | _, _ => none

/-- `[lowest n of d]` -/
def lowestVal (low : Bool) : Val → Val → Option Val
  | .num n, d => do
    let k ← size d
    at' low false (.seq (interval (k - n + 1) k)) d
  | _, _ => none

/-- `[middle n of d]` -/
def middleVal (low : Bool) : Val → Val → Option Val
  | .num n, d => do
    let k ← size d
    if n = k then some d
    else if n = 1 then at' low false (.num (1 + ((k : ℤ) - 1).fdiv 2)) d
    else at' low false (.seq (interval (1 + ((k : ℤ) - n).fdiv 2) (((k : ℤ) - n).fdiv 2 + n))) d
  | _, _ => none

/-- `[highest of a and b]` -/
def maxVal : Val → Val → Option Val
  | .num a, .num b => some (.num (max a b))
  | _, _ => none

/-- `[lowest of a and b]` -/
def minVal : Val → Val → Option Val
  | .num a, .num b => some (.num (min a b))
  | _, _ => none

/-- `[reverse s]` -/
def reverseVal : Val → Option Val
  | .seq s => some (.seq s.reverse)
  | _ => none

/-- `[sort s]` -/
def sortVal : Val → Option Val
  | .seq s => some (.seq (descending s))
  | _ => none

/-- The functions defined so far; the first entry counts. -/
abbrev Funs := List (Sig × Fun)

/-- The function library. -/
def library : Funs :=
  [([some "absolute".toList, none], lib1 .N absVal), ([none, some "contains".toList, none], lib2 .S .N containsVal),
    ([some "count".toList, none, some "in".toList, none], lib2 .S .S countVal),
    ([some "explode".toList, none], .lib fun t l => match l with
      | [d] => some (explodeVal t.explode d)
      | _ => none),
    ([some "highest".toList, none, some "of".toList, none], libSel highestVal),
    ([some "lowest".toList, none, some "of".toList, none], libSel lowestVal),
    ([some "middle".toList, none, some "of".toList, none], libSel middleVal),
    ([some "highest".toList, some "of".toList, none, some "and".toList, none], lib2 .N .N maxVal),
    ([some "lowest".toList, some "of".toList, none, some "and".toList, none], lib2 .N .N minVal),
    ([some "maximum".toList, some "of".toList, none], .lib fun _ l => match l with
      | [d] => some (maximumVal d)
      | _ => none),
    ([some "reverse".toList, none], lib1 .S reverseVal), ([some "sort".toList, none], lib1 .S sortVal),
    ([some "true".toList, some "div".toList, none, none], .lib fun _ _ => none)]

/-! ## Programs -/

/-- Variables; the first entry counts. -/
abbrev Env := List (List Char × Val)

/-- The variables in sight, see `Spec.Frame`. -/
structure Scope where
  own : Option (List (List Char))
  env : Env
  outer : Env

/-- The value of a variable. -/
def Scope.find (f : Scope) (x : List Char) : Option Val :=
  match f.own with
  | none => f.env.lookup x
  | some names => if x ∈ names then f.env.lookup x else f.outer.lookup x

/-- Giving a value to a variable. -/
def Scope.set (f : Scope) (x : List Char) (o : Val) : Scope := { f with env := (x, o) :: f.env }

/-- The variables of the program. -/
def Scope.program (f : Scope) : Env :=
  match f.own with
  | none => f.env
  | some _ => f.outer

/-- How functions are called: the settings, and user functions. -/
structure Call where
  table : Table
  user : Scope → Funs → List DefPart → Block → List Val → Option Val

/-- A call. -/
def apply (call : Call) (fns : Funs) (fr : Scope) (f : Fun) (args : List Val) : Option Val :=
  match f with
  | .lib g => g call.table args
  | .user d body => call.user fr fns d body args

/-- The numbers that a value can be. -/
def amounts : Val → List ℤ
  | .num n => [n]
  | .seq s => [s.sum]
  | .die l _ => l.map fun x => x.1
  | .blank _ => []

/-- Binary operations; they must be possible whatever the outcomes are. -/
def operate (low ints : Bool) (op : BinOp) (a b : Val) : Option Val :=
  if op = .at_ then at' low ints a b
  else if (amounts a).all fun x => (amounts b).all fun y => possible op x y then some (binary ints op a b)
  else none

mutual

/-- The value of an expression. -/
def value (R : Rules) (call : Call) (fns : Funs) (fr : Scope) : Expr → Option Val
  | .num n => some (.num (decimal n))
  | .dec _ _ => none
  | .var x => fr.find x
  | .str _ => none
  | .group e => value R call fns fr e
  | .bin op l r => do
    let a ← value R call fns fr l
    let b ← value R call fns fr r
    operate call.table.low R.ints op a b
  | .ndm l r => do
    let a ← value R call fns fr l
    let b ← value R call fns fr r
    some (rollVal a b)
  | .dm r => do
    let b ← value R call fns fr r
    some (rollVal (.num 1) b)
  | .unary op e => do
    let a ← value R call fns fr e
    unary R.ints op a
  | .hash e => do
    let a ← value R call fns fr e
    hash R.ints a
  | .seq es => do
    let vs ← values R call fns fr es
    some (seqOf vs)
  | .call cs => do
    let f ← fns.lookup (callSig cs)
    let args ← arguments R call fns fr cs
    apply call fns fr f args

/-- The elements of a sequence. -/
def values (R : Rules) (call : Call) (fns : Funs) (fr : Scope) : Elems → Option (List Val)
  | .nil => some []
  | .expr e es => do
    let a ← value R call fns fr e
    let vs ← values R call fns fr es
    some (a :: vs)
  | .range l r es => do
    let a ← value R call fns fr l
    let b ← value R call fns fr r
    let s ← rangeVal a b
    let vs ← values R call fns fr es
    some (s :: vs)

/-- The arguments of a call. -/
def arguments (R : Rules) (call : Call) (fns : Funs) (fr : Scope) : CallParts → Option (List Val)
  | .nil => some []
  | .word _ cs => arguments R call fns fr cs
  | .arg e cs => do
    let a ← value R call fns fr e
    let as ← arguments R call fns fr cs
    some (a :: as)

end

/-- The settings that values depend on: how often dice explode, whether the lowest die is the first, how deep functions may call each other, and
how much of that is left. -/
structure Config where
  explode : ℕ
  low : Bool
  depth : ℤ
  left : ℤ

/-- What expressions depend on. -/
def Config.table (c : Config) : Table := ⟨c.explode, c.low⟩

/-- Setting a number. -/
def Config.set (c : Config) (name : List Char) (n : ℤ) : Config :=
  if name = "explode depth".toList then { c with explode := n.toNat }
  else if name = "maximum function depth".toList then { c with depth := n, left := n - (c.depth - c.left) }
  else c

/-- A text that mentions no variables. -/
def written : List StrPart → Option (List Char)
  | [] => some []
  | .text s :: ps => (written ps).map (s ++ ·)
  | .var _ :: _ => none

/-- A text in which values are shown. -/
abbrev Text := List (Char ⊕ Val)

/-- A text that mentions variables. -/
def spell (fr : Scope) : List StrPart → Option Text
  | [] => some []
  | .text s :: ps => (spell fr ps).map (s.map .inl ++ ·)
  | .var x :: ps => do
    let v ← fr.find x
    let t ← spell fr ps
    some (.inr v :: t)

/-- What a program has at a point: functions, variables, what was output, with which name, and settings. -/
structure Point where
  fns : Funs
  fr : Scope
  outs : List (Val × Option Text)
  conf : Config

/-- `true` and `false`, in capitals or not. -/
def isFlag (text : List Char) : Bool := decide (text.map Char.toLower ∈ ["true".toList, "false".toList])

/-- Setting a text. -/
def setText (name text : List Char) (s : Point) : Option (Point × Option Val) :=
  if name = "position order".toList ∧ text ∈ ["highest first".toList, "lowest first".toList] then
    some ({ s with conf := { s.conf with low := decide (text = "lowest first".toList) } }, none)
  else if name ∈ ["RV_TRUNC".toList, "RV_IGNORE_ZERO_PROBS".toList] ∧ isFlag text then some (s, none)
  else none

/-- Setting a value. -/
def setValue (name : List Char) (v : Val) (s : Point) : Option (Point × Option Val) :=
  match v with
  | .num n =>
    if 0 < n ∧ name ∈ ["explode depth".toList, "maximum function depth".toList, "DEFAULT_OUTPUT_WIDTH".toList] then
      some ({ s with conf := s.conf.set name n }, none)
    else none
  | _ => none

/-- A loop over the numbers of a sequence, until there is a result. -/
def loop (f : Point → ℤ → Option (Point × Option Val)) : List ℤ → Point → Option (Point × Option Val)
  | [], s => some (s, none)
  | n :: ns, s => do
    let r ← f s n
    match r.2 with
    | some v => some (r.1, some v)
    | none => loop f ns r.1

/-- The numbers of a sequence. -/
def numbers : Val → Option (List ℤ)
  | .seq s => some s
  | _ => none

mutual

/-- A statement: what there is after it, and the result, if it gives one. -/
def statement (R : Rules) (call : Config → Call) : Stmt → Point → Option (Point × Option Val)
  | .output e, s => do
    let v ← value R (call s.conf) s.fns s.fr e
    some ({ s with outs := s.outs ++ [(v, none)] }, none)
  | .outputNamed e n, s => do
    let v ← value R (call s.conf) s.fns s.fr e
    let t ← spell s.fr n
    some ({ s with outs := s.outs ++ [(v, some t)] }, none)
  | .set n (.str t), s => do
    let name ← written n
    let text ← written t
    setText name text s
  | .set n e, s => do
    let name ← written n
    let v ← value R (call s.conf) s.fns s.fr e
    setValue name v s
  | .function d body, s => some ({ s with fns := (defSig d, .user d body) :: s.fns }, none)
  | .result e, s => do
    let v ← value R (call s.conf) s.fns s.fr e
    some (s, some v)
  | .cond c body rest, s => do
    let v ← value R (call s.conf) s.fns s.fr c
    let t ← truth v
    if t then block R call body s else alternatives R call rest s
  | .loop x e body, s => do
    let v ← value R (call s.conf) s.fns s.fr e
    let ns ← numbers v
    loop (fun s n => block R call body { s with fr := s.fr.set x (.num n) }) ns s
  | .assign x e, s => do
    let v ← value R (call s.conf) s.fns s.fr e
    some ({ s with fr := s.fr.set x v }, none)

/-- A block. -/
def block (R : Rules) (call : Config → Call) : Block → Point → Option (Point × Option Val)
  | .nil, s => some (s, none)
  | .cons st b, s => do
    let r ← statement R call st s
    match r.2 with
    | some v => some (r.1, some v)
    | none => block R call b r.1

/-- Alternatives. -/
def alternatives (R : Rules) (call : Config → Call) : Else → Point → Option (Point × Option Val)
  | .done, s => some (s, none)
  | .else_ b, s => block R call b s
  | .elif c b r, s => do
    let v ← value R (call s.conf) s.fns s.fr c
    let t ← truth v
    if t then block R call b s else alternatives R call r s

end

/-- The variables at the beginning of a function.  Of parameters with the same name the first counts. -/
def begin' (R : Rules) (fr : Scope) (d : List DefPart) (body : Block) (args : List Val) : Scope :=
  if R.copy then ⟨none, ((paramsOf d).map Prod.fst).zip args ++ fr.env, []⟩
  else ⟨some ((paramsOf d).map Prod.fst ++ assignsB body), ((paramsOf d).map Prod.fst).zip args, fr.program⟩

/-- Functions, in given settings; below so many calls there is only a blank. -/
def callUser (R : Rules) (c : Config) : ℕ → Call
  | 0 => ⟨c.table, fun _ _ _ _ _ => some (.blank false)⟩
  | n + 1 => ⟨c.table, fun fr fns d body args =>
    cast (fun vs => do
      let r ← block R (fun _ => callUser R c n) body ⟨fns, begin' R fr d body vs, [], { c with left := n }⟩
      some r.2) (((paramsOf d).map Prod.snd).zip args)⟩

/-- Functions, in given settings. -/
def callIn (R : Rules) (c : Config) : Call := callUser R c c.left.toNat

mutual

/-- Functions (where `top` is not set) change no settings and output nothing. -/
def plainS (top : Bool) : Stmt → Bool
  | .output _ => top
  | .outputNamed _ _ => top
  | .set _ _ => top
  | .function _ body => plainB false body
  | .result _ => true
  | .cond _ body rest => plainB top body && plainE top rest
  | .loop _ _ body => plainB top body
  | .assign _ _ => true

/-- The same of a block. -/
def plainB (top : Bool) : Block → Bool
  | .nil => true
  | .cons s b => plainS top s && plainB top b

/-- The same of alternatives. -/
def plainE (top : Bool) : Else → Bool
  | .done => true
  | .else_ b => plainB top b
  | .elif _ b r => plainB top b && plainE top r

end

/-- The outputs of a program that begins with these settings, with their names. -/
def outputs (R : Rules) (c : Config) (p : Block) : Option (List (Val × Option Text)) :=
  if plainB true p then (block R (callIn R) p ⟨if R.lib then library else [], ⟨none, [], []⟩, [], c⟩).map fun r => r.1.outs
  else none

/-! ## What a program gives -/

/-- An object of the library is this value.  A die has outcomes, in ascending order, each once, all of them possible, with weights in lowest
terms, and the probability of every outcome is the right one. -/
def Shows : PythonDice.Obj → Val → Prop
  | .num a, .num b => a = b
  | .seq s, .seq t => s = t
  | .blank a, .blank b => a = b
  | .rv r, .die l _ => r.vals ≠ [] ∧ r.vals.length = r.probs.length ∧ r.vals.Pairwise (· < ·) ∧ (∀ p ∈ r.probs, 0 < p) ∧ Coprime r.probs ∧
      ∀ v, Pr (r.vals.zip r.probs) (fun x => x = v) = prob l v
  | _, _ => False

/-- A text shows these values. -/
def ShowsText : PythonDice.PyText → Text → Prop := List.Forall₂ fun
  | .inl a, .inl b => a = b
  | .inr o, .inr v => Shows o v
  | _, _ => False

/-- An output is this value with this name. -/
def ShowsOutput : PythonDice.Obj × Option PythonDice.PyText → Val × Option Text → Prop
  | (o, none), (v, none) => Shows o v
  | (o, some t), (v, some u) => Shows o v ∧ ShowsText t u
  | _, _ => False

end Spec.Naive
