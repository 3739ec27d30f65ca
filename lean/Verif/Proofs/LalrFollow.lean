import Verif.Proofs.Build
import Verif.Proofs.Lalr

/-!
# The follow sets of the grammar

The checks of the kernel on the tables are in several files, because each needs much memory.
-/

namespace PythonDice.Yacc

/-- The states of the grammar. -/
def gStates : List State := plyStates (productions precedence rules) 200

/-- The nonterminals of the grammar that derive the empty text. -/
def gNullable : ℕ := nullable (productions precedence rules)

/-- No transition reads another. -/
def noReads (R : Rel) : Bool := R.all fun r => r.all fun e => e.2.isEmpty

set_option maxRecDepth 100000 in
theorem noReads_grammar : noReads (readsRel gStates gNullable) = true := by decide +kernel

set_option maxRecDepth 100000 in
theorem trans_length : (trans gStates).length = 201 := by decide +kernel

/-- The follow sets of the grammar, as numbers. -/
def followData : Sets :=
  [[(65, 7314396413952), (67, 7314396413952), (66, 7314396413952), (71, 64), (68, 8413908041728)], [(67, 7314396413952), (71, 64), (68,
    8413908041728)], [], [], [(74, 7383120113598), (72, 7387146645438), (75, 7383388549054), (71, 7383388549054)], [], [(71, 34359738368)],
    [], [], [(72, 278636003328)], [(69, 7314400608256), (70, 8413912236032)], [(74, 2125758), (75, 270561214), (71, 270561214), (72,
    4028657598)], [], [], [], [], [(75, 8796092956606), (71, 8796092956606), (72, 8796092956606)], [(75, 8796092956606), (71,
    8796092956606), (72, 8796092956606)], [], [(75, 8796092956606), (71, 8796092956606), (72, 8796092956606)], [(75, 8796092956606), (71,
    8796092956606), (72, 8796092956606)], [(75, 8796092956606), (71, 8796092956606), (72, 8796092956606)], [(74, 1077182), (75, 269512638),
    (71, 269512638), (72, 4027609022)], [], [], [(76, 4456448), (77, 4456448), (74, 4616126), (78, 4456448), (75, 273051582), (71,
    273051582), (72, 4031147966)], [(79, 4398040780806), (74, 4398040809406), (75, 4398040809406), (71, 4398040809406), (72,
    4398040809406)], [], [], [], [(73, 4394122739712), (71, 4394122739776)], [], [(71, 7314669072318), (74, 7314400636862), (75,
    7314669072318), (72, 7318427168702)], [(74, 7314400636862), (75, 7314669072318), (71, 7314669072318), (72, 7318427168702)], [], [],
    [(69, 7314400608256)], [], [], [(72, 7318158704640)], [(74, 8796092956606), (75, 8796092956606), (71, 8796092956606), (72,
    8796092956606)], [(74, 8796092956606), (75, 8796092956606), (71, 8796092956606), (72, 8796092956606)], [(74, 8796092956606), (75,
    8796092956606), (71, 8796092956606), (72, 8796092956606)], [(74, 8796092956606), (75, 8796092956606), (71, 8796092956606), (72,
    8796092956606)], [(74, 8796092956606), (75, 8796092956606), (71, 8796092956606), (72, 8796092956606)], [(74, 8796092956606), (75,
    8796092956606), (71, 8796092956606), (72, 8796092956606)], [(74, 8796092956606), (75, 8796092956606), (71, 8796092956606), (72,
    8796092956606)], [(74, 8796092956606), (75, 8796092956606), (71, 8796092956606), (72, 8796092956606)], [(74, 8796092956606), (75,
    8796092956606), (71, 8796092956606), (72, 8796092956606)], [(74, 8796092956606), (75, 8796092956606), (71, 8796092956606), (72,
    8796092956606)], [(74, 8796092956606), (75, 8796092956606), (71, 8796092956606), (72, 8796092956606)], [(74, 8796092956606), (75,
    8796092956606), (71, 8796092956606), (72, 8796092956606)], [], [], [], [], [], [(75, 8796092956606), (71, 8796092956606), (72,
    8796092956606)], [], [], [], [], [], [], [], [], [], [], [(74, 4398040809406), (75, 4398040809406), (71, 4398040809406), (72,
    4398040809406)], [], [], [], [], [], [], [], [], [], [], [], [], [], [(71, 4394122739776)], [], [], [], [], [], [], [], [], [], [], [],
    [], [(71, 270561214), (74, 2125758), (75, 270561214), (72, 4028657598)], [], [], [(72, 7318427168702), (74, 7314400636862), (75,
    7314669072318), (71, 7314669072318)], [], [], [(65, 2916354097152), (67, 2916354097152), (66, 2916354097152), (71, 64), (68,
    4015865724928)], [(74, 2125758), (75, 270561214), (71, 270561214), (72, 4028657598)], [(65, 2916354097152), (67, 2916354097152), (66,
    2916354097152), (71, 64), (68, 4015865724928)], [], [], [], [], [], [], [], [], [], [], [(74, 8796092956606), (75, 8796092956606), (71,
    8796092956606), (72, 8796092956606)], [], [(74, 8796092956606), (75, 8796092956606), (71, 8796092956606), (72, 8796092956606)], [], [],
    [], [], [], [], [(77, 4456448), (74, 4616126), (78, 4456448), (75, 273051582), (71, 273051582), (72, 4031147966)], [(74, 4485054), (75,
    272920510), (71, 272920510), (72, 4031016894)], [], [], [], [], [], [], [], [], [], [], [], [], [], [], [(65, 2916354097152), (67,
    2916354097152), (66, 2916354097152), (71, 64), (68, 4015865724928)], [], [], [], [], [], [], [], [], [], [], [], [], [], [], [], [],
    [(74, 2125758), (75, 270561214), (71, 270561214), (72, 4028657598)], [(67, 2916354097152), (71, 64), (68, 4015865724928)], [], [(67,
    2916354097152), (71, 64), (68, 4015865724928)], [], [], [], [], [(67, 2916354097152), (71, 64), (68, 4015865724928)], [], [], [], [(71,
    64), (65, 2916354097152), (67, 2916354097152), (66, 2916354097152), (68, 4015865724928)], [], [], [(65, 2916354097152), (67,
    2916354097152), (66, 2916354097152), (71, 64), (68, 4015865724928)], [], [], [], [], [(71, 64), (67, 2916354097152), (68,
    4015865724928)], [(65, 2916354097152), (67, 2916354097152), (66, 2916354097152), (71, 64), (68, 4015865724928)], [(67, 2916354097152),
    (71, 64), (68, 4015865724928)], [], [(67, 2916354097152), (71, 64), (68, 4015865724928)], [], []]

set_option maxRecDepth 100000 in
theorem follow_eq : followSets gStates gNullable = followData := by decide +kernel

end PythonDice.Yacc
