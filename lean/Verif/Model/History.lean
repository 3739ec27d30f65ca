import Verif.Model.Roll

/-! # Reachable states of the module -/

namespace PythonDice

/-- States the module can be in: after any history of settings changes and rolls (`_MEMOIZED_ROLLS` is
only written by rolls, src/roller.py:98), with any other observable effects in between. -/
inductive Reachable : World → Prop
  | init : Reachable {}
  /-- any `settings_set` / `settings_reset` / depth accounting -/
  | settings {w : World} (s : Settings) : Reachable w → Reachable { w with settings := s }
  /-- any call that rolls -/
  | roll {w : World} (n : ℤ) (d : RV ℤ) : Reachable w → Reachable (rollInt n d w).2
  /-- a warning logged elsewhere -/
  | warn {w : World} : Reachable w → Reachable { w with warns := w.warns + 1 }
  /-- other observable effects -/
  | effects {w : World} (k : ℕ) (t : List (List Obj)) (o : List (Obj × Option PyText)) (d : List (List (List Char × Obj))) :
      Reachable w → Reachable { w with depthMsgs := k, trace := t, outs := o, dicts := d }

/-- States reached by histories during which 'RV_IGNORE_ZERO_PROBS' was always `z`. -/
inductive History (z : Bool) : World → Prop
  | init (s : Settings) : s.rvIgnoreZeroProbs = z → History z { settings := s }
  /-- other settings may change -/
  | settings {w : World} (s : Settings) : s.rvIgnoreZeroProbs = z → History z w → History z { w with settings := s }
  /-- any roll -/
  | roll {w : World} (n d : Obj) : History z w → History z (roll n d w).2
  /-- other observable effects -/
  | effects {w : World} (wn k : ℕ) (t : List (List Obj)) (o : List (Obj × Option PyText)) (d : List (List (List Char × Obj))) :
      History z w → History z { w with warns := wn, depthMsgs := k, trace := t, outs := o, dicts := d }

end PythonDice
