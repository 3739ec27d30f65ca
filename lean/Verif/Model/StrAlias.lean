import Verif.Model.Roll
import Verif.Model.Output

/-!
# Model of the displayed names of dice (`_str_LHS_RHS`, `RV.__str__`)

The name of a die is a mutable attribute, so this model has objects with identity: a heap of `RV`
objects, addressed by their position.  The arithmetic is that of `Model/RV.lean`; warnings are left
out.
-/

namespace PythonDice

/-- The second component of `_str_LHS_RHS`: a number of sides, `'{?}'` or `'{}'`. -/
inductive Rhs
  | num (d : ℤ)
  | unknown
  | empty
  deriving DecidableEq, Repr

/-- An `RV` object: its distribution and its `_str_LHS_RHS`. -/
structure Cell where
  die : RV ℤ
  name : ℤ × Rhs := (1, .unknown)
  deriving DecidableEq, Repr

/-- The objects created so far and `_MEMOIZED_ROLLS` (src/roller.py:81), which holds objects. -/
structure Heap where
  cells : List Cell := []
  memo : List ((ℕ × List ℤ × List ℕ) × ℕ) := []
  deriving DecidableEq, Repr

/-- Computations on the heap; like Python's they keep their effects when an exception is raised. -/
def H (β : Type) : Type := Heap → Except Err β × Heap

namespace H
variable {β γ : Type}

def pure (x : β) : H β := fun h => (.ok x, h)

def bind (m : H β) (f : β → H γ) : H γ := fun h => match m h with
  | (.ok x, h') => f x h'
  | (.error e, h') => (.error e, h')

instance : Monad H where
  pure := H.pure
  bind := H.bind

/-- A call that does not touch names. -/
def lift (x : Except Err β) : H β := fun h => (x, h)

/-- A call that does not touch names, of a function that may log a warning. -/
def liftLimited (x : Except Err (β × Bool)) : H β := fun h => (x.map (·.1), h)

/-- src/randvar.py:22-39: a new object, named `(1, '{?}')`. -/
def new (x : Except Err (RV ℤ)) : H ℕ := fun h => match x with
  | .ok r => (.ok h.cells.length, { h with cells := h.cells ++ [{ die := r }] })
  | .error e => (.error e, h)

/-- A new object, from a function that may log a warning. -/
def newLimited (x : Except Err (RV ℤ × Bool)) : H ℕ := new (x.map (·.1))

/-- The object at an address. -/
def die (a : ℕ) : H (RV ℤ) := fun h => match h.cells[a]? with
  | some c => (.ok c.die, h)
  | none => (.error .attribute, h)

/-- The name of an object. -/
def name (a : ℕ) : H (ℤ × Rhs) := fun h => match h.cells[a]? with
  | some c => (.ok c.name, h)
  | none => (.error .attribute, h)

/-- `a._str_LHS_RHS = nm`. -/
def setName (a : ℕ) (nm : ℤ × Rhs) : H Unit := fun h =>
  (.ok (), { h with cells := h.cells.modify a fun c => { c with name := nm } })

/-- src/randvar.py:116-118 `a.set_source(n, d)`. -/
def setSource (a : ℕ) (n : ℕ) (d : RV ℤ) : H Unit := fun h =>
  (.ok (), { h with cells := h.cells.modify a fun c => { c with die := c.die.setSource n d } })

/-- src/roller.py:91-92. -/
def memoGet (n : ℕ) (d : RV ℤ) : H (Option ℕ) := fun h => (.ok (h.memo.lookup (n, d.vals, d.probs)), h)

/-- src/roller.py:98. -/
def memoSet (n : ℕ) (d : RV ℤ) (a : ℕ) : H Unit := fun h =>
  (.ok (), { h with memo := ((n, d.vals, d.probs), a) :: h.memo })

/-- `tuple(f(x) for x in l)`. -/
def forList (f : β → H γ) : List β → H (List γ)
  | [] => pure []
  | x :: xs => bind (f x) fun y => bind (forList f xs) fun ys => pure (y :: ys)

end H

/-- src/roller.py:95-96. -/
def addOddH (st : Settings) (n : ℕ) (full : ℕ) (d : ℕ) : H ℕ :=
  if n % 2 = 1 then do
    let f ← H.die full
    let dd ← H.die d
    H.newLimited (RV.binop st .add f dd)
  else pure full

/-- src/roller.py:93-99: rolling `n ≥ 2` dice that are not memoised, given how to roll `n // 2`. -/
def rollFresh (st : Settings) (half : H ℕ) (n : ℕ) (d : ℕ) : H ℕ := do
  let half ← half
  let hd ← H.die half
  let full ← H.newLimited (RV.binop st .add hd hd)
  let full ← addOddH st n full d
  let dd ← H.die d
  H.setSource full n dd
  H.memoSet n dd full
  pure full

/-- src/roller.py:84-99 `_roll_int_rv` for `n ≥ 0`, returning an object; `d` is the address of the die. -/
def rollNatH (st : Settings) : ℕ → ℕ → ℕ → H ℕ
  | 0, _, _ => H.lift (.error .user)
  | fuel + 1, n, d =>
    if n = 0 then H.new (RV.fromConst st 0)
    else if n = 1 then pure d
    else do
      let dd ← H.die d
      match ← H.memoGet n dd with
      | some a => pure a
      | none => rollFresh st (rollNatH st fuel (n / 2) d) n d

/-- src/roller.py:84-99 `_roll_int_rv`. -/
def rollIntH (st : Settings) (n : ℤ) (d : ℕ) : H ℕ :=
  if n < 0 then do
    let r ← rollNatH st (n.natAbs + 1) n.natAbs d
    let rd ← H.die r
    H.new (RV.neg st rd)
  else rollNatH st (n.natAbs + 1) n.natAbs d

/-- An argument of `roll`: an int, a sequence of ints, or an `RV` object.  Blank dice are left out: a
call with one returns before any name is set (src/roller.py:41-46). -/
inductive HArg
  | num (n : ℤ)
  | seq (s : List ℤ)
  | rv (a : ℕ)
  deriving DecidableEq, Repr

/-- src/roller.py:58-66: the die meant by the second argument. -/
def asDieH (st : Settings) : HArg → H ℕ
  | .num m =>
    if 0 < m then H.new (RV.fromSeq st (pyRange 1 (m + 1)))
    else if m = 0 then H.new (RV.fromConst st 0)
    else H.new (RV.fromSeq st (pyRange m 0))
  | .seq s => H.new (RV.fromSeq st s)
  | .rv a => pure a

/-- src/roller.py:111. -/
def nameLhs : HArg → ℤ
  | .num n => n
  | .seq s => s.sum
  | .rv _ => 0

/-- src/roller.py:117-118: the sides shown for a die that is itself an `RV`. -/
def nameOfDie : ℤ × Rhs → Rhs
  | (1, .num d) => .num d
  | _ => .unknown

/-- src/roller.py:112-118. -/
def nameRhs : HArg → H Rhs
  | .num d => pure (.num d)
  | .seq s => pure (if s.length = 0 then .empty else .unknown)
  | .rv a => do
    let nm ← H.name a
    pure (nameOfDie nm)

/-- src/roller.py:52-54: naming the result. -/
def rollNamed (result : H ℕ) (n d : HArg) : H ℕ := do
  let r ← result
  let rhs ← nameRhs d
  H.setName r (nameLhs n, rhs)
  pure r

/-- src/roller.py:72-77: rolling an `RV` number of dice. -/
def rollRvH (st : Settings) (n d : ℕ) : H ℕ := do
  let nd ← H.die n
  let dies ← H.forList (fun v => rollNamed (rollIntH st v d) (.num v) (.rv d)) nd.vals
  let dies ← H.forList H.die dies
  let r ← H.liftLimited (RV.fromRvs st (dies.map RV.Entry.rv) (some (nd.probs.map fun p : ℕ => (p : ℤ))))
  match r with
  | some r => do
    let dd ← H.die d
    H.new (.ok (r.setSource 1 dd))
  | none => H.lift (.error .notImplemented)

/-- src/roller.py:57-78 `_roll`. -/
def rollInnerH (st : Settings) (n d : HArg) : H ℕ := do
  let die ← asDieH st d
  match n with
  | .num k => rollIntH st k die
  | .seq s => rollNamed (rollIntH st s.sum die) (.num s.sum) (.rv die)
  | .rv a => rollRvH st a die

/-- src/roller.py:45: the empty sequence is no die. -/
def HArg.isEmptySeq : HArg → Bool
  | .seq [] => true
  | _ => false

/-- src/roller.py:11-54 `roll(n, d)`; the result `none` is a blank die. -/
def rollH (st : Settings) (n d : HArg) : H (Option ℕ) :=
  if d.isEmptySeq then pure none
  else do
    let r ← rollNamed (rollInnerH st n d) n d
    pure (some r)

/-- src/randvar.py:377 `LHS`. -/
def strLhs (s : ℤ) : List Char := if 1 < |s| then strOfInt |s| else []

/-- src/randvar.py:373-388 `__str__`, for int components. -/
def strName : ℤ × Rhs → List Char
  | (s, .num d) =>
    (if 0 ≤ s * d then [] else ['-']) ++ strLhs s ++ ['d'] ++
      (if s * d = 0 then "{0..0}".toList else strOfInt |d|)
  | (_, .empty) => "d{}".toList
  | (s, .unknown) => if s = 0 then "d{0..0}".toList else strLhs s ++ "d{?}".toList

/-- `str(X)` of the object at an address. -/
def strOf (h : Heap) (a : ℕ) : Option (List Char) := (h.cells[a]?).map fun c => strName c.name

end PythonDice
