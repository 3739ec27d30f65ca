import Verif.Model.SeqOps

/-!
# Model of `src/funclib.py`

Every function is given by its body (on the argument list after casting) and its decorated form.
Extra positional/keyword arguments are ignored by the code and not modelled.
-/

namespace PythonDice

/-- A decorated function always has a result object here; Python's `None` cannot occur. -/
def orBlank (m : M (Option Obj)) : M Obj := do return (← m).getD (.blank false)

/-- src/funclib.py:12-15 -/
def absoluteFn : List Obj → M (Option Obj)
  | [.num n] => pure (some (.num (if n < 0 then -n else n)))
  | _ => M.throw .type

/-- src/funclib.py:11-15 `absolute`. -/
def absolute (a : Obj) : M Obj := orBlank (castCall absoluteFn [(some .N, a)])

/-- src/funclib.py:19-20 -/
def containsFn : List Obj → M (Option Obj)
  | [.seq s, .num n] => pure (some (.num (ofBool (decide (seqCmpNum .eq s n > 0)))))
  | _ => M.throw .type

/-- src/funclib.py:18-20 `contains`. -/
def contains (s n : Obj) : M Obj := orBlank (castCall containsFn [(some .S, s), (some .N, n)])

/-- src/funclib.py:24-28; `P @ VALUES == SEQUENCE` is `int == Seq`. -/
def countInFn : List Obj → M (Option Obj)
  | [.seq vs, .seq s] => pure (some (.num
      ((pyRange 1 (vs.length + 1)).foldl (fun count p => count + seqCmpNum .eq s (getItem vs p)) 0)))
  | _ => M.throw .type

/-- src/funclib.py:23-28 `count_in`. -/
def countIn (vs s : Obj) : M Obj := orBlank (castCall countInFn [(some .S, vs), (some .S, s)])

/-- src/funclib.py:32-36 -/
def reverseSlowFn : List Obj → M (Option Obj)
  | [.seq s] => pure (some (.seq ((pyRange 1 (s.length + 1)).foldl (fun r p => getItem s p :: r) [])))
  | _ => M.throw .type

/-- src/funclib.py:31-36 `reverse_VANILLA_SLOW`. -/
def reverseSlow (s : Obj) : M Obj := orBlank (castCall reverseSlowFn [(some .S, s)])

/-- src/funclib.py:40-41 -/
def reverseFn : List Obj → M (Option Obj)
  | [.seq s] => pure (some (.seq s.reverse))
  | _ => M.throw .type

/-- src/funclib.py:39-41 `reverse`. -/
def reverse (s : Obj) : M Obj := orBlank (castCall reverseFn [(some .S, s)])

/-- src/funclib.py:45-46 -/
def maximumOfFn : List Obj → M (Option Obj)
  | [d] => do
    let r ← reverse (.seq (getSeq [d.toSrc]))
    return some (← matmul (.num 1) r)
  | _ => M.throw .type

/-- src/funclib.py:44-46 `maximum_of`. -/
def maximumOf (d : Obj) : M Obj := orBlank (castCall maximumOfFn [(some .D, d)])

/-- src/funclib.py:57-61 `_explode_helper(N, MAX, ORIG_DIE, depth)`, by recursion on the depth. -/
def explodeHelper : ℕ → Obj → Obj → Obj → M (Option Obj)
  | 0, n, mx, d => castCall (fun
      | [.num n, .num _, _] => pure (some (.num n))
      | _ => M.throw .type) [(some .N, n), (some .N, mx), (some .D, d)]
  | depth + 1, n, mx, d => castCall (fun
      | [.num n, .num mx, d] =>
        if n = mx then do
          let rest ← explodeHelper depth d (.num mx) d
          return some (← binop .add (.num n) (rest.getD (.blank false)))
        else pure (some (.num n))
      | _ => M.throw .type) [(some .N, n), (some .N, mx), (some .D, d)]

/-- src/funclib.py:50-54; a negative depth behaves like 0. -/
def explodeFn (depth : Option ℤ) : List Obj → M (Option Obj)
  | [d] => do
    let st ← M.settings
    let depth := depth.getD st.explodeDepth
    let mx ← maximumOf d
    explodeHelper depth.toNat d mx d
  | _ => M.throw .type

/-- src/funclib.py:49-54 `explode(DIE, depth=None)`. -/
def explode (d : Obj) (depth : Option ℤ := none) : M Obj := orBlank (castCall (explodeFn depth) [(some .D, d)])

/-- src/funclib.py:65-66 -/
def highestNFn : List Obj → M (Option Obj)
  | [.num n, d] => some <$> matmul (.seq (pyRange 1 (n + 1))) d
  | _ => M.throw .type

/-- src/funclib.py:64-66 `highest_N_of_D`. -/
def highestN (n d : Obj) : M Obj := orBlank (castCall highestNFn [(some .N, n), (some .D, d)])

/-- src/funclib.py:70-71 -/
def lowestNFn : List Obj → M (Option Obj)
  | [.num n, d] => some <$> matmul (.seq (pyRange ((myLen d : ℤ) - n + 1) ((myLen d : ℤ) + 1))) d
  | _ => M.throw .type

/-- src/funclib.py:69-71 `lowest_N_of_D`. -/
def lowestN (n d : Obj) : M Obj := orBlank (castCall lowestNFn [(some .N, n), (some .D, d)])

/-- src/funclib.py:75-84 -/
def middleNFn : List Obj → M (Option Obj)
  | [.num n, d] =>
    let len : ℤ := myLen d
    if n = len then pure (some d)
    else if n = 1 then some <$> matmul (.num (1 + (len - 1).fdiv 2)) d
    else
      let from' := 1 + (len - n).fdiv 2
      let to' := from' + n - 1
      some <$> matmul (.seq (pyRange from' (to' + 1))) d
  | _ => M.throw .type

/-- src/funclib.py:74-84 `middle_N_of_D`. -/
def middleN (n d : Obj) : M Obj := orBlank (castCall middleNFn [(some .N, n), (some .D, d)])

/-- src/funclib.py:88-91 -/
def highestOfFn : List Obj → M (Option Obj)
  | [.num a, .num b] => pure (some (.num (if a > b then a else b)))
  | _ => M.throw .type

/-- src/funclib.py:87-91 `highest_of_N_and_N`. -/
def highestOf (a b : Obj) : M Obj := orBlank (castCall highestOfFn [(some .N, a), (some .N, b)])

/-- src/funclib.py:95-98 -/
def lowestOfFn : List Obj → M (Option Obj)
  | [.num a, .num b] => pure (some (.num (if a < b then a else b)))
  | _ => M.throw .type

/-- src/funclib.py:94-98 `lowest_of_N_and_N`. -/
def lowestOf (a b : Obj) : M Obj := orBlank (castCall lowestOfFn [(some .N, a), (some .N, b)])

/-- src/funclib.py:118-124: one iteration; `none` for `N` is `Seq()`, for which `N >= P @ S` is the
count 0 (falsy). -/
def sortHelperStep (s : List ℤ) (acc : List ℤ × Option ℤ) (p : ℤ) : List ℤ × Option ℤ :=
  let x := getItem s p
  match acc.2 with
  | some n => if n ≥ x then (acc.1 ++ [n, x], none) else (acc.1 ++ [x], some n)
  | none => (acc.1 ++ [x], none)

/-- src/funclib.py:110-127.  Line 125 `if len(N)` raises TypeError if `N` is still an int. -/
def sortHelperFn : List Obj → M (Option Obj)
  | [.num n, .seq s] =>
    if s.length = 0 then pure (some (.seq [n]))
    else if n ≥ getItem s 1 then pure (some (.seq (n :: s)))
    else if n ≤ getItem s s.length then pure (some (.seq (s ++ [n])))
    else
      match (pyRange 1 (s.length + 1)).foldl (sortHelperStep s) ([], some n) with
      | (_, some _) => M.throw .type
      | (r, none) => pure (some (.seq r))
  | _ => M.throw .type

/-- src/funclib.py:109-127 `_sort_helper_add_N_to_S`. -/
def sortHelper (n s : Obj) : M Obj := orBlank (castCall sortHelperFn [(some .N, n), (some .S, s)])

/-- src/funclib.py:104-105: the loop over the positions. -/
def sortSlowLoop (s : List ℤ) : List ℤ → Obj → M Obj
  | [], sorted => pure sorted
  | p :: ps, sorted => do
    let sorted' ← sortHelper (.num (getItem s p)) sorted
    sortSlowLoop s ps sorted'

/-- src/funclib.py:102-106 -/
def sortSlowFn : List Obj → M (Option Obj)
  | [.seq s] => some <$> sortSlowLoop s (pyRange 1 (s.length + 1)) (.seq [])
  | _ => M.throw .type

/-- src/funclib.py:101-106 `sort_VANILLA_SLOW`. -/
def sortSlow (s : Obj) : M Obj := orBlank (castCall sortSlowFn [(some .S, s)])

/-- src/funclib.py:131-132 -/
def sortFn : List Obj → M (Option Obj)
  | [.seq s] => pure (some (.seq (s.insertionSort fun a b => b ≤ a)))
  | _ => M.throw .type

/-- src/funclib.py:130-132 `sort`. -/
def sort (s : Obj) : M Obj := orBlank (castCall sortFn [(some .S, s)])

/-- src/funclib.py:147-150 -/
def gwfHelperFn : List Obj → M (Option Obj)
  | [.num r, d, .num m] => if r ≤ m then pure (some d) else pure (some (.num r))
  | _ => M.throw .type

/-- src/funclib.py:138-143; the helper is called with keyword arguments in this order. -/
def gwfFn : List Obj → M (Option Obj)
  | [.num n, d, m] => do
    let dmg ← match d with
      | .num k => roll (.num 1) (.num k)
      | d => pure d
    let single ← orBlank (castCall gwfHelperFn [(some .N, dmg), (some .D, dmg), (some .N, m)])
    some <$> roll (.num n) single
  | _ => M.throw .type

/-- src/funclib.py:137-143 `gwf(num_die, dmg_die, min_to_reroll=2)`. -/
def gwf (n d : Obj) (m : Obj := .num 2) : M Obj :=
  orBlank (castCall gwfFn [(some .N, n), (none, d), (none, m)])

end PythonDice
