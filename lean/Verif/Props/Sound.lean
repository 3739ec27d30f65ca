import Verif.Proofs.SoundExec
import Verif.Props.Run
import Verif.Props.Roll
import Mathlib.Algebra.BigOperators.Field

/-!
# C79: the dice that programs make are in lowest terms
-/

namespace PythonDice

open Spec Compiler Lexer
open Spec.Py (ReadsProgram)

/-- A die with outcomes in ascending order, one weight each. -/
structure InOrder (d : RV ℤ) : Prop where
  len : d.vals.length = d.probs.length
  sorted : d.vals.Pairwise (· < ·)
  nonempty : d.vals ≠ []

/-- In addition, its weights are positive and have no common divisor. -/
structure InLowestTerms (d : RV ℤ) : Prop extends InOrder d where
  pos : ∀ p ∈ d.probs, 0 < p
  coprime : Coprime d.probs

theorem SoundDie.inOrder {b : Bool} {d : RV ℤ} (h : SoundDie b d) : InOrder d := ⟨h.len, h.sorted, h.nonempty⟩

theorem SoundDie.lowest {d : RV ℤ} (h : SoundDie true d) : InLowestTerms d := ⟨h.inOrder, (h.full rfl).1, (h.full rfl).2.1⟩

theorem fresh_sound (b : Bool) : SoundWorld b ({} : World) := ⟨(fun x hx => by cases hx), (fun x hx => by cases hx), fun x hx => by cases hx⟩

/-- **C79** (src/randvar.py:13-75, 263-336, 440-455, src/roller.py, src/decorators.py, src/funclib.py), on syntax trees: every die that a program
outputs, in a new interpreter or after any other programs (failed or not), has its outcomes in ascending order, each once and with one weight;
and as long as no warning was logged that probabilities were reduced, its weights are positive and in lowest terms.  This is so of the dice
that are output before a program fails, too. -/
theorem C79_run (R : Rules) (n : ℕ) (ps : List Block) (b : Block) {d : RV ℤ} {t : Option PyText}
    (h : (.rv d, t) ∈ (run R n b (session R n ps {})).2.outs) :
    InOrder d ∧ ((run R n b (session R n ps {})).2.warns = 0 → InLowestTerms d) := by
  have hs := sound_session R n ps (fresh_sound false)
  have hr := sound_run R n b _ (hs.2 false fun e => by cases e)
  refine ⟨SoundDie.inOrder ((hr.2.1 false fun e => by cases e).1.outs _ h), fun h0 => SoundDie.lowest ((hr.2.1 true fun _ => ⟨rfl, ?_, ?_⟩).1.outs _ h)⟩
  · have := hr.1
    omega
  · refine hs.2 true fun _ => ⟨?_, fresh_sound true⟩
    have := hr.1
    change _ = 0
    omega

/-- What a program returns are the outputs of the state after it. -/
theorem run_outs {R : Rules} {n : ℕ} {b : Block} {w : World} {o : List (Obj × Option PyText)} (h : (run R n b w).1 = .ok o) : (run R n b w).2.outs = o := by
  have e : run R n b w = (runB R (runCall R n) b ⟨if R.lib then libraryFns else [], ⟨none, [], []⟩⟩ >>= fun _ =>
      (M.get >>= fun w => pure w.outs : M (List (Obj × Option PyText)))) { w with outs := [] } := rfl
  rw [e, M.bind_apply] at h ⊢
  rcases hr : runB R (runCall R n) b ⟨if R.lib then libraryFns else [], ⟨none, [], []⟩⟩ { w with outs := [] } with ⟨r, v⟩
  rw [hr] at h
  cases r with
  | error e => cases h
  | ok x =>
    cases h
    rfl

/-- C79. The same of the dice in the list of outputs. -/
theorem C79_outputs (R : Rules) (n : ℕ) (ps : List Block) (b : Block) {o : List (Obj × Option PyText)}
    (ho : (run R n b (session R n ps {})).1 = .ok o) {d : RV ℤ} {t : Option PyText} (h : (.rv d, t) ∈ o) :
    InOrder d ∧ ((run R n b (session R n ps {})).2.warns = 0 → InLowestTerms d) := by
  rw [← run_outs ho] at h
  exact C79_run R n ps b h

/-- Python programs run one after the other, whether they fail or not: the state after them. -/
def executed (n : ℕ) : List Py.Block → World → World
  | [], w => w
  | p :: ps, w => executed n ps (Exec.unsafeExec n p w).2

theorem sound_executed (n : ℕ) (ps : List Py.Block) {w : World} (hw : SoundWorld false w) :
    w.warns ≤ (executed n ps w).warns ∧ ∀ c : Bool, (c = true → (executed n ps w).warns = w.warns ∧ SoundWorld true w) →
      SoundWorld c (executed n ps w) := by
  induction ps generalizing w with
  | nil =>
    refine ⟨le_rfl, fun c hc => ?_⟩
    cases c with
    | false => exact hw
    | true => exact (hc rfl).2
  | cons p ps ih =>
    obtain ⟨h1, h2, _⟩ := sound_exec n p w hw
    obtain ⟨h3, h4⟩ := ih (h2 false fun e => by cases e).1
    refine ⟨h1.trans h3, fun c hc => ?_⟩
    cases c with
    | false => exact h4 false fun e => by cases e
    | true =>
      obtain ⟨g1, g2⟩ := hc rfl
      rw [executed] at g1
      exact h4 true fun _ => ⟨by omega, (h2 true fun _ => ⟨rfl, by omega, g2⟩).1⟩

/-- C79. The same of all Python programs, compiled from a text or not: every die that `unsafe_exec` leaves among the outputs, after any other Python
programs. -/
theorem C79_exec (n : ℕ) (ps : List Py.Block) (p : Py.Block) {d : RV ℤ} {t : Option PyText}
    (h : (.rv d, t) ∈ (Exec.unsafeExec n p (executed n ps {})).2.outs) :
    InOrder d ∧ ((Exec.unsafeExec n p (executed n ps {})).2.warns = 0 → InLowestTerms d) := by
  have hs := sound_executed n ps (fresh_sound false)
  have hr := sound_exec n p _ (hs.2 false fun e => by cases e)
  refine ⟨SoundDie.inOrder ((hr.2.1 false fun e => by cases e).1.outs _ h), fun h0 => SoundDie.lowest ((hr.2.1 true fun _ => ⟨rfl, ?_, ?_⟩).1.outs _ h)⟩
  · have := hr.1
    omega
  · refine hs.2 true fun _ => ⟨?_, fresh_sound true⟩
    have := hr.1
    change _ = 0
    omega

/-- What a Python program returns are the outputs of the state after it. -/
theorem exec_outs {n : ℕ} {p : Py.Block} {w : World} {o : List (Obj × Option PyText)} (h : (Exec.unsafeExec n p w).1 = .ok o) :
    (Exec.unsafeExec n p w).2.outs = o := by
  have e : Exec.unsafeExec n p w = (Exec.runModule n p >>= fun _ => (M.get >>= fun w => pure w.outs : M (List (Obj × Option PyText))))
      { w with outs := [] } := rfl
  rw [e, M.bind_apply] at h ⊢
  rcases hr : Exec.runModule n p { w with outs := [] } with ⟨r, v⟩
  rw [hr] at h
  cases r with
  | error e => cases h
  | ok x =>
    cases h
    rfl

/-- C79. The same of the dice in the list that `unsafe_exec` returns. -/
theorem C79_exec_outputs (n : ℕ) (ps : List Py.Block) (p : Py.Block) {o : List (Obj × Option PyText)}
    (ho : (Exec.unsafeExec n p (executed n ps {})).1 = .ok o) {d : RV ℤ} {t : Option PyText} (h : (.rv d, t) ∈ o) :
    InOrder d ∧ ((Exec.unsafeExec n p (executed n ps {})).2.warns = 0 → InLowestTerms d) := by
  rw [← exec_outs ho] at h
  exact C79_exec n ps p h

theorem wsum_weights (l : List (ℤ × ℕ)) (S : Finset ℤ) (hS : ∀ x ∈ l, x.1 ∈ S) (f : ℤ → ℚ) :
    wsum l f = ∑ v ∈ S, wsum l (fun x => if x = v then 1 else 0) * f v := by
  induction l with
  | nil => simp [wsum]
  | cons x l ih =>
    rw [wsum_cons, ih fun y hy => hS y (List.mem_cons_of_mem _ hy)]
    have e : ∀ v ∈ S, wsum (x :: l) (fun y => if y = v then 1 else 0) * f v =
        (if x.1 = v then (x.2 : ℚ) * f v else 0) + wsum l (fun y => if y = v then 1 else 0) * f v := by
      intro v _
      rw [wsum_cons]
      split <;> ring
    rw [Finset.sum_congr rfl e, Finset.sum_add_distrib, Finset.sum_ite_eq, if_pos (hS x List.mem_cons_self)]

theorem Ex_of_Pr {l m : List (ℤ × ℕ)} (h : ∀ v, Pr l (· = v) = Pr m (· = v)) (f : ℤ → ℚ) : Ex l f = Ex m f := by
  have key : ∀ k : List (ℤ × ℕ), (∀ x ∈ k, x.1 ∈ ((l ++ m).map Prod.fst).toFinset) →
      Ex k f = ∑ v ∈ ((l ++ m).map Prod.fst).toFinset, Pr k (· = v) * f v := by
    intro k hk
    rw [Ex, wsum_weights k _ hk, Finset.sum_div]
    refine Finset.sum_congr rfl fun v _ => ?_
    rw [Pr, Ex]
    ring
  rw [key l fun x hx => ?_, key m fun x hx => ?_]
  · exact Finset.sum_congr rfl fun v _ => by rw [h v]
  · rw [List.mem_toFinset]
    exact List.mem_map_of_mem (List.mem_append_right _ hx)
  · rw [List.mem_toFinset]
    exact List.mem_map_of_mem (List.mem_append_left _ hx)

/-- Dice in lowest terms are determined by their probabilities. -/
theorem InLowestTerms.ext {d e : RV ℤ} (hd : InLowestTerms d) (he : InLowestTerms e) (h : ∀ v, Pr d.pairs (· = v) = Pr e.pairs (· = v)) :
    d.vals = e.vals ∧ d.probs = e.probs := by
  have gd : GoodDie d := ⟨hd.len, hd.sorted, hd.nonempty, hd.pos, hd.coprime⟩
  have ge : GoodDie e := ⟨he.len, he.sorted, he.nonempty, he.pos, he.coprime⟩
  exact Canonical_law_ext ⟨hd.len, hd.sorted, hd.nonempty, fun _ => hd.coprime⟩ ⟨he.len, he.sorted, he.nonempty, fun _ => he.coprime⟩
    (Enum.GoodDie.proper gd).pos (Enum.GoodDie.proper ge).pos (fun p hp => (hd.pos p hp).ne') (fun p hp => (he.pos p hp).ne') (Ex_of_Pr h)

/-- C79. Dice output by programs, the same or different ones, under whatever rules: if they have the same probabilities, they have the same outcomes
and weights, so that `dices_are_equal`, tables and exports show no difference; and the other way round. -/
theorem C79_same (R R' : Rules) (n n' : ℕ) (ps ps' : List Block) (b b' : Block) {d d' : RV ℤ} {t t' : Option PyText}
    (h : (.rv d, t) ∈ (run R n b (session R n ps {})).2.outs) (h' : (.rv d', t') ∈ (run R' n' b' (session R' n' ps' {})).2.outs)
    (h0 : (run R n b (session R n ps {})).2.warns = 0) (h0' : (run R' n' b' (session R' n' ps' {})).2.warns = 0) (st : Settings) :
    RV.dicesAreEqual st (.rv d) (.rv d') = .ok true ↔ ∀ v, Pr d.pairs (· = v) = Pr d'.pairs (· = v) := by
  have e : RV.dicesAreEqual st (.rv d) (.rv d') = .ok (decide (d.vals = d'.vals ∧ d.probs = d'.probs)) := rfl
  rw [e]
  simp only [Except.ok.injEq, decide_eq_true_eq]
  refine ⟨fun ⟨h1, h2⟩ v => ?_, fun hv => ((C79_run R n ps b h).2 h0).ext ((C79_run R' n' ps' b' h').2 h0') hv⟩
  rw [RV.pairs, RV.pairs, h1, h2]

/-- C79. The same of dice output by Python programs. -/
theorem C79_exec_same (n n' : ℕ) (ps ps' : List Py.Block) (p p' : Py.Block) {d d' : RV ℤ} {t t' : Option PyText}
    (h : (.rv d, t) ∈ (Exec.unsafeExec n p (executed n ps {})).2.outs) (h' : (.rv d', t') ∈ (Exec.unsafeExec n' p' (executed n' ps' {})).2.outs)
    (h0 : (Exec.unsafeExec n p (executed n ps {})).2.warns = 0) (h0' : (Exec.unsafeExec n' p' (executed n' ps' {})).2.warns = 0) (st : Settings) :
    RV.dicesAreEqual st (.rv d) (.rv d') = .ok true ↔ ∀ v, Pr d.pairs (· = v) = Pr d'.pairs (· = v) := by
  have e : RV.dicesAreEqual st (.rv d) (.rv d') = .ok (decide (d.vals = d'.vals ∧ d.probs = d'.probs)) := rfl
  rw [e]
  simp only [Except.ok.injEq, decide_eq_true_eq]
  refine ⟨fun ⟨h1, h2⟩ v => ?_, fun hv => ((C79_exec n ps p h).2 h0).ext ((C79_exec n' ps' p' h').2 h0') hv⟩
  rw [RV.pairs, RV.pairs, h1, h2]

/-- `A: d2 = 1  loop I over {1..10} { A: A & A }  output A`: ten times the chance is squared that a flag is up. -/
def squaring : Block :=
  .cons (.assign "A".toList (.bin .eq (.dm (.num "2".toList)) (.num "1".toList)))
  (.cons (.loop "I".toList (.seq (.range (.num "1".toList) (.num "10".toList) .nil))
    (.cons (.assign "A".toList (.bin .and_ (.var "A".toList) (.var "A".toList))) .nil))
  (.cons (.output (.var "A".toList)) .nil))

/-- After a warning weights can be 0: the outcome 1, which has probability 2 ^ (-1024), is kept with weight 0. -/
theorem C79_warned_counterexample :
    (run ⟨false, true, true⟩ 11 squaring {}).1 = .ok [(.rv ⟨[0, 1], [1, 0], none⟩, none)] ∧ (run ⟨false, true, true⟩ 11 squaring {}).2.warns = 1 := by
  constructor <;> decide +kernel

/-- `output 2d6  output d6 + d6  output 1 @ 2d6 / 0` fails after two outputs. -/
def twoOutputs : Block :=
  .cons (.output (.ndm (.num "2".toList) (.num "6".toList)))
  (.cons (.output (.bin .add (.dm (.num "6".toList)) (.dm (.num "6".toList))))
  (.cons (.output (.bin .div (.bin .at_ (.num "1".toList) (.ndm (.num "2".toList) (.num "6".toList))) (.num "0".toList))) .nil))

example : (run ⟨false, true, true⟩ 11 twoOutputs (session ⟨false, true, true⟩ 11 [twoOutputs] {})).1 = .error .zeroDivision ∧
    (run ⟨false, true, true⟩ 11 twoOutputs (session ⟨false, true, true⟩ 11 [twoOutputs] {})).2.outs =
      [(.rv ⟨[2, 3, 4, 5, 6, 7, 8, 9, 10, 11, 12], [1, 2, 3, 4, 5, 6, 5, 4, 3, 2, 1], some (2, [1, 2, 3, 4, 5, 6], [1, 1, 1, 1, 1, 1])⟩, none),
        (.rv ⟨[2, 3, 4, 5, 6, 7, 8, 9, 10, 11, 12], [1, 2, 3, 4, 5, 6, 5, 4, 3, 2, 1], none⟩, none)] ∧
    (run ⟨false, true, true⟩ 11 twoOutputs (session ⟨false, true, true⟩ 11 [twoOutputs] {})).2.warns = 0 := by
  refine ⟨?_, ?_, ?_⟩ <;> decide +kernel

/-- `if d2: pass` fails after `output(roll(2, 6))`, in Python. -/
def pyOutput : Py.Block :=
  .cons (.expr (.call (.name "output".toList) (.cons (.call (.name "roll".toList) (.cons (.int "2".toList) (.cons (.int "6".toList) .nil))) .nil)))
  (.cons (.cond (.call (.name "roll".toList) (.cons (.int "2".toList) .nil)) (.cons .pass .nil) .done) .nil)

example : (Exec.unsafeExec 5 pyOutput (executed 5 [pyOutput] {})).1.toOption = none ∧
    (Exec.unsafeExec 5 pyOutput (executed 5 [pyOutput] {})).2.outs =
      [(.rv ⟨[2, 3, 4, 5, 6, 7, 8, 9, 10, 11, 12], [1, 2, 3, 4, 5, 6, 5, 4, 3, 2, 1], some (2, [1, 2, 3, 4, 5, 6], [1, 1, 1, 1, 1, 1])⟩, none)] ∧
    (Exec.unsafeExec 5 pyOutput (executed 5 [pyOutput] {})).2.warns = 0 := by
  refine ⟨?_, ?_, ?_⟩ <;> decide +kernel

end PythonDice
