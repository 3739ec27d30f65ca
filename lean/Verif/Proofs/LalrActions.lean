import Verif.Proofs.LalrFollow

/-!
# The entries of the table of actions
-/

namespace PythonDice.Yacc

/-! ## Numbers of states -/

/-- The number that PLY gives to each state. -/
def numberData : List ℕ :=
  [0, 1, 2, 3, 4, 5, 6, 8, 9, 10, 7, 11, 12, 13, 14, 18, 19, 16, 17, 20, 21, 22, 23, 24, 25, 15, 26, 27, 28, 29, 30, 31, 33, 34, 35, 36, 37,
    32, 38, 39, 40, 41, 42, 43, 44, 45, 46, 47, 48, 49, 50, 51, 57, 58, 55, 56, 59, 60, 61, 62, 63, 64, 65, 66, 67, 52, 53, 54, 68, 69, 70,
    71, 72, 73, 74, 75, 76, 77, 78, 79, 80, 82, 83, 84, 81, 85, 86, 87, 88, 89, 90, 91, 92, 93, 94, 95, 97, 98, 99, 100, 101, 102, 96, 103,
    104, 105, 106, 107, 108, 109, 110, 111, 112, 113, 114, 115, 116, 117, 118, 119, 120, 121, 122, 123, 124, 125, 126, 127, 128, 129, 130,
    131, 132, 133, 134, 135, 136, 137, 139, 140, 141, 138, 142, 143, 144, 145, 146, 147, 148, 149, 150, 151, 152, 153, 154, 155, 156, 157,
    158, 159, 160, 161, 162, 163, 164, 165, 166, 167, 168, 169, 170, 171, 172, 173, 174, 175, 176, 177, 178, 179, 180, 181, 182]

/-- The state with each number. -/
def stateData : List ℕ :=
  [0, 1, 2, 3, 4, 5, 6, 10, 7, 8, 9, 11, 12, 13, 14, 25, 17, 18, 15, 16, 19, 20, 21, 22, 23, 24, 26, 27, 28, 29, 30, 31, 37, 32, 33, 34, 35,
    36, 38, 39, 40, 41, 42, 43, 44, 45, 46, 47, 48, 49, 50, 51, 65, 66, 67, 54, 55, 52, 53, 56, 57, 58, 59, 60, 61, 62, 63, 64, 68, 69, 70,
    71, 72, 73, 74, 75, 76, 77, 78, 79, 80, 84, 81, 82, 83, 85, 86, 87, 88, 89, 90, 91, 92, 93, 94, 95, 102, 96, 97, 98, 99, 100, 101, 103,
    104, 105, 106, 107, 108, 109, 110, 111, 112, 113, 114, 115, 116, 117, 118, 119, 120, 121, 122, 123, 124, 125, 126, 127, 128, 129, 130,
    131, 132, 133, 134, 135, 136, 137, 141, 138, 139, 140, 142, 143, 144, 145, 146, 147, 148, 149, 150, 151, 152, 153, 154, 155, 156, 157,
    158, 159, 160, 161, 162, 163, 164, 165, 166, 167, 168, 169, 170, 171, 172, 173, 174, 175, 176, 177, 178, 179, 180, 181, 182]

/-- The number that PLY gives to a state. -/
def number (s : ℕ) : ℕ := numberData.getD s s

/-- An entry with the numbers of PLY. -/
def Action.renumber (f : ℕ → ℕ) : Action → Action
  | .shift j => .shift (f j)
  | .reduce p => .reduce p
  | .accept => .accept

/-- The row of actions of a state. -/
def plyRow (s : ℕ × State) : List (ℕ × Action) :=
  actionRow (columns precedence) s.2.next (s.2.items.map (withLookahead followData (lookback gStates gNullable) s.1))

/-- The row of actions of a state, from the tables of the model. -/
def dataRow (s : ℕ) : List (ℕ × Action) := (tableData.action.getD s []).map fun e => (e.1, e.2.renumber number)

set_option maxRecDepth 100000 in
theorem ply_action_low : ((numbered gStates).take 91).map plyRow = (stateData.take 91).map dataRow := by decide +kernel

set_option maxRecDepth 100000 in
theorem ply_action_high : ((numbered gStates).drop 91).map plyRow = (stateData.drop 91).map dataRow := by decide +kernel

theorem tablesFrom_action (precs : List (ℕ × Prec)) (C : List State) (F : Sets) (back : List (Trans × Trans)) :
    (tablesFrom precs C F back).action = (numbered C).map fun s => actionRow precs s.2.next (s.2.items.map (withLookahead F back s.1)) := rfl

theorem ply_action : (tablesFrom (columns precedence) gStates (followSets gStates gNullable) (lookback gStates gNullable)).action =
    stateData.map fun s => (tableData.action.getD s []).map fun e => (e.1, e.2.renumber number) := by
  have h : (numbered gStates).map plyRow = stateData.map dataRow := by
    rw [← List.take_append_drop 91 (numbered gStates), List.map_append, ply_action_low, ply_action_high, ← List.map_append,
      List.take_append_drop]
  unfold plyRow dataRow at h
  rw [follow_eq, tablesFrom_action, h]

set_option maxRecDepth 100000 in
theorem ply_goto : ((List.range 183).all fun s => (List.range 16).all fun x =>
    assoc (64 + x) ((gStates.map ntNext).getD (number s) []) = (assoc (64 + x) (tableData.goto.getD s [])).map number) = true := by decide +kernel

theorem number_state : ∀ s < 183, stateData[number s]? = some s := by decide +kernel

end PythonDice.Yacc
