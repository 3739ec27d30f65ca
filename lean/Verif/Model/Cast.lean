import Verif.Model.Roll

/-!
# Model of `src/decorators.py`
-/

namespace PythonDice

/-- src/typings.py:11-20: the annotations `T_N`, `T_S`, `T_D`. -/
inductive Ty
  | N | S | D
  deriving DecidableEq, Repr

/-- src/decorators.py:44-98: what the first loop leaves in an argument position: a value, or
(`hard_params`, expanded in lines 102-113) a list of values with weights. -/
inductive Slot
  | easy (o : Obj)
  | hard (choices : List (Obj × ℕ))
  deriving DecidableEq, Repr

/-- src/decorators.py:48-96 for one argument with its annotation (`none`: not annotated, or annotated
with something else).  The case of a blank die for `T_N`/`T_S` is dealt with by `castAborts`. -/
def castSlot (ty : Option Ty) (o : Obj) : M Slot :=
  match ty, o with
  | some .N, .seq s => pure (.easy (.num s.sum))
  | some .N, .rv r => pure (.hard (r.pairs.map fun vp => (.num vp.1, vp.2)))
  | some .S, .num n => pure (.easy (.seq [n]))
  | some .S, .rv r => pure (.hard (r.expandedRolls.map fun vp => (.seq vp.1, vp.2)))
  | some .D, .num n => do return .easy (.rv (← M.ofSettings fun st => RV.fromConst st n))
  | some .D, .seq s => do return .easy (.rv (← M.ofSettings fun st => RV.fromSeq st s))
  | _, o => pure (.easy o)

/-- src/decorators.py:60-65: a blank die for a number or sequence parameter. -/
def castAborts : Option Ty × Obj → Bool
  | (some .N, .blank _) => true
  | (some .S, .blank _) => true
  | _ => false

/-- Is the parameter in `hard_params`? -/
def Slot.isHard : Slot → Bool
  | .hard _ => true
  | .easy _ => false

/-- The values an argument takes, with weights. -/
def Slot.choices : Slot → List (Obj × ℕ)
  | .hard cs => cs
  | .easy o => [(o, 1)]

/-- src/decorators.py:114-127: `itertools.product` of the hard parameters (the last one varies
fastest), each combination with the product of its weights, put into the argument list. -/
def combos : List Slot → List (List Obj × ℕ)
  | [] => [([], 1)]
  | s :: ss => s.choices.flatMap fun op => (combos ss).map fun cs => (op.1 :: cs.1, op.2 * cs.2)

/-- src/decorators.py:128-136: what is appended to `res_vals` (`None` and blanks are dropped by
`from_rvs`, src/randvar.py:96). -/
def resultEntry : Option Obj → RV.Entry ℤ
  | some (.num n) => .num n
  | some (.seq s) => .num s.sum
  | some (.rv r) => .rv r
  | some (.blank _) => .blank
  | none => .blank

/-- A die or blank as an object. -/
def objOfRV : Option (RV ℤ) → Obj
  | some r => .rv r
  | none => .blank false

/-- src/decorators.py:22-139 `anydice_type_casting`: a call of the decorated function `f`.
`args` are the positional arguments followed by the keyword arguments, each with its annotation.
`f` returns `none` for Python's `None`. -/
def castCall (f : List Obj → M (Option Obj)) (args : List (Option Ty × Obj)) : M (Option Obj) :=
  if args.any castAborts then pure (some (.blank true))
  else do
    let slots ← M.forList (fun a : Option Ty × Obj => castSlot a.1 a.2) args
    if slots.any Slot.isHard then do
      let res ← M.forList (fun c : List Obj × ℕ => do
        let v ← f c.1
        return (resultEntry v, c.2)) (combos slots)
      let r ← M.ofLimited fun st =>
        RV.fromRvs st (res.map fun x => x.1) (some (res.map fun x => (x.2 : ℤ)))
      return some (objOfRV r)
    else f ((combos slots).headD ([], 1)).1

/-- src/decorators.py:142-158 `max_func_depth`. -/
def depthCall (body : M (Option Obj)) : M Obj := do
  let st ← M.settings
  if st.maxFuncDepth ≤ st.currDepth then do
    if st.currDepthWarningPrinted then pure ()
    else M.modify fun w => { w with
      depthMsgs := w.depthMsgs + 1
      settings := { w.settings with currDepthWarningPrinted := true } }
    pure (.blank false)
  else do
    M.modify fun w => { w with settings := { w.settings with currDepth := w.settings.currDepth + 1 } }
    let res ← body
    M.modify fun w => { w with settings := { w.settings with currDepth := w.settings.currDepth - 1 } }
    pure (res.getD (.blank false))

/-- src/decorators.py:16-19 `anydice_casting`. -/
def fnCall (f : List Obj → M (Option Obj)) (args : List (Option Ty × Obj)) : M Obj :=
  depthCall (castCall f args)

end PythonDice
