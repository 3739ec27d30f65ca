import Verif.Model.Digraph
import Verif.Model.Yacc

/-!
# Model of the lookahead sets with the algorithm of PLY: `src/parser/ply/yacc.py:1496-1742`

`Model/Yacc.lean` has the sets as bit masks, replaces the algorithm by rounds, and numbers the states in another order.  Here the sets are lists, as in
the source, `digraph` is the algorithm of the source, and the states have their numbers.
-/

namespace PythonDice.Yacc

/-- ply/yacc.py:1424-1428: the symbols of all productions of the items (`usyms`, ply/yacc.py:633-637), in the order in which they are met. -/
def asyms (is : List Item) : List ℕ := (is.flatMap fun i => i.prod.rhs).foldl (fun l x => if x ∈ l then l else l ++ [x]) []

/-- ply/yacc.py:1430-1432: the sets of items that are not empty, in the order of the symbols. -/
def plyGotos (is : List Item) : List (ℕ × List Item) := (asyms is).filterMap fun x => (assoc x (gotos is [])).map fun g => (x, g)

/-- ply/yacc.py:1411-1436 `lr0_items`: as `statesLoop`, in the order of the source. -/
def plyLoop (starts : List (List Item)) (size : ℕ) : ℕ → List ℕ → List (List Item) → List State
  | 0, _, _ => []
  | _ + 1, _, [] => []
  | n + 1, known, is :: queue =>
    ⟨closure starts size is, (enter (plyGotos (closure starts size is)) known queue).2.2⟩ ::
      plyLoop starts size n (enter (plyGotos (closure starts size is)) known queue).1
        (enter (plyGotos (closure starts size is)) known queue).2.1

/-- ply/yacc.py:1411-1436 `lr0_items`: the states, with the numbers of the source. -/
def plyStates (ps : List Production) (bound : ℕ) : List State :=
  match ps with
  | [] => []
  | p :: _ => plyLoop (startTable ps) ps.length bound [kernelCode [p.item]] [[p.item]]

/-- ply/yacc.py:1496-1505 `find_nonterminal_transitions`; the order is that of the transitions of a state, which does not matter (C100). -/
def trans (C : List State) : List Trans := (numbered C).flatMap fun s => (ntNext s.2).map fun e => (s.1, e.1)

/-- ply/yacc.py:1520-1526 `dr_relation`: an item; tokens have codes below 64. -/
def addTerm (terms : List ℕ) (i : Item) : List ℕ :=
  match i.after with
  | [] => terms
  | a :: _ => if a < 64 then (if a ∈ terms then terms else terms ++ [a]) else terms

/-- ply/yacc.py:1516-1526 `dr_relation`: the loop over the items. -/
def directTerms (is : List Item) : List ℕ := is.foldl addTerm []

/-- ply/yacc.py:1516-1533 `dr_relation`. -/
def drRelation (C : List State) (t : Trans) : List ℕ :=
  match stepOn C t.1 t.2 with
  | none => []
  | some j =>
    if t = (0, ntCode .multilineCode) then directTerms (C.getD j noState).items ++ [endCode] else directTerms (C.getD j noState).items

/-- ply/yacc.py:1540-1554 `reads_relation`. -/
def readsRelation (C : List State) (null : ℕ) (t : Trans) : List Trans :=
  match stepOn C t.1 t.2 with
  | none => []
  | some j => (nullableAfter null (C.getD j noState).items).map fun x => (j, x)

/-- ply/yacc.py:1663-1667 `compute_read_sets`. -/
def computeReadSets (C : List State) (null : ℕ) : Trans → List ℕ := Digraph.digraph (trans C) (readsRelation C null) (drRelation C)

/-- ply/yacc.py:1643-1646: `includedict`. -/
def includeDict (C : List State) (null : ℕ) (t : Trans) : List Trans :=
  ((includePairs C null).filter fun q => q.1 = t).map Prod.snd

/-- ply/yacc.py:1685-1689 `compute_follow_sets`. -/
def computeFollowSets (C : List State) (null : ℕ) : Trans → List ℕ :=
  Digraph.digraph (trans C) (includeDict C null) (computeReadSets C null)

/-- A list of tokens as a bit mask. -/
def mask : List ℕ → ℕ
  | [] => 0
  | a :: l => 2 ^ a ||| mask l

/-- The sets, laid out as in `Model/Yacc.lean`. -/
def layout (C : List State) (F : Trans → List ℕ) : Sets := (numbered C).map fun s => (ntNext s.2).map fun e => (e.1, mask (F (s.1, e.1)))

/-- ply/yacc.py:1321-1343 `LRTable`, with the states and the lookahead sets of the source. -/
def plyBuild (table : List (Assoc × List PrecName)) (rs : List Rule) (bound : ℕ) : Tables :=
  tablesFrom (columns table) (plyStates (productions table rs) bound)
    (layout (plyStates (productions table rs) bound)
      (computeFollowSets (plyStates (productions table rs) bound) (nullable (productions table rs))))
    (lookback (plyStates (productions table rs) bound) (nullable (productions table rs)))

end PythonDice.Yacc
