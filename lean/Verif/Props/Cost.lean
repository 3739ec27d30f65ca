import Verif.Proofs.DriftExec
import Verif.Proofs.Grown
import Verif.Proofs.Order
import Verif.Props.Drawn
import Verif.Props.Cast
import Mathlib.Data.Nat.Choose.Basic

/-!
# C96: what rolling and calling cost
-/

namespace PythonDice
open Spec

/-- C96. Rolling `n` dice adds entries to the table of remembered rolls for a run of the halvings of `n` only, none for a roll the
table has: at most `log₂ |n|` entries, whatever happens. -/
theorem C96_entries (n : ℤ) (d : RV ℤ) (w : World) :
    ∃ added : List ((ℕ × List ℤ × List ℕ) × RV ℤ), (roll (.num n) (.rv d) w).2.memo = added ++ w.memo ∧
      added.map (·.1) <:+: (halvings n.natAbs).map (fun k => (k, d.vals, d.probs)) ∧
      (∀ k ∈ added.map (·.1), w.memo.lookup k = none) ∧ added.length ≤ Nat.log 2 n.natAbs := by
  have e : (roll (.num n) (.rv d) w).2.memo = (rollNat (n.natAbs + 1) n.natAbs d w).2.memo := by
    have e1 : roll (.num n) (.rv d) = Obj.rv <$> rollInt n d := rfl
    have e2 : (roll (.num n) (.rv d) w).2 = (rollInt n d w).2 := by
      rw [e1]
      show (M.bind (rollInt n d) _ w).2 = _
      unfold M.bind
      rcases rollInt n d w with ⟨r | r, w'⟩ <;> rfl
    rw [e2]
    unfold rollInt
    split
    · rw [M.bind_apply]
      rcases rollNat (n.natAbs + 1) n.natAbs d w with ⟨r | r, w'⟩ <;> rfl
    · rfl
  obtain ⟨added, h1, h2, h3, -⟩ := rollNat_added (n.natAbs + 1) n.natAbs d w
  refine ⟨added, e.trans h1, h2, h3, ?_⟩
  have := h2.length_le
  rwa [List.length_map, List.length_map, halvings_length] at this

/-- 13 dice need the entries for 13, 6 and 3; from a table that has 6 dice, only the one for 13. -/
example : halvings 13 = [13, 6, 3] := by decide +kernel

example : (roll (.num 13) (.rv ⟨[1, 2], [1, 1], none⟩) {}).2.memo.map (·.1.1) = [13, 6, 3] ∧
    (roll (.num 13) (.rv ⟨[1, 2], [1, 1], none⟩) (roll (.num 6) (.rv ⟨[1, 2], [1, 1], none⟩) {}).2).2.memo.map (·.1.1) = [13, 6, 3] ∧
    Nat.log 2 13 = 3 := by decide +kernel

/-- C96. Rolling the same again returns the same die and changes nothing: no sum is computed, no entry added, no warning logged. -/
theorem C96_again {n : ℤ} {d : RV ℤ} {w w' : World} {o : Obj} (h : roll (.num n) (.rv d) w = (.ok o, w')) :
    roll (.num n) (.rv d) w' = (.ok o, w') := by
  rw [roll_num_rv, M.map_ok_iff] at h ⊢
  obtain ⟨r, h, rfl⟩ := h
  refine ⟨r, ?_, rfl⟩
  have key : ∀ {k : ℕ} {q : RV ℤ} {v : World}, rollNat (k + 1) k d w = (.ok q, v) → rollNat (k + 1) k d v = (.ok q, v) := by
    intro k q v hq
    obtain ⟨added, e, -, -, hok⟩ := rollNat_added (k + 1) k d w
    rw [hq] at e hok
    have h2 := (hok q rfl).2
    rw [← e] at h2
    unfold rollNat at hq ⊢
    by_cases h0 : k = 0
    · rw [if_pos h0] at hq ⊢
      have hv : v = w := (congrArg Prod.snd hq).symm
      subst hv
      exact hq
    · rw [if_neg h0] at hq ⊢
      by_cases h1 : k = 1
      · rw [if_pos h1] at hq ⊢; cases hq; rfl
      · rw [if_neg h1, M.bind_apply]
        have hg : memoGet k d v = (.ok (v.memo.lookup (rollKey d k)), v) := rfl
        rw [hg, h2 (by omega)]
        rfl
  unfold rollInt at h ⊢
  split at h
  · rename_i hn
    rw [if_pos hn]
    rw [M.bind_ok_iff] at h ⊢
    obtain ⟨q, v, hq, h⟩ := h
    have hv : v = w' := by
      change (RV.neg v.settings q, v) = _ at h
      exact congrArg Prod.snd h
    subst hv
    exact ⟨q, v, key hq, h⟩
  · rename_i hn
    rw [if_neg hn]
    exact key h

/-- C96. What a table has for at least two dice, `roll` returns, at no cost. -/
theorem C96_remembered {n : ℕ} (hn : 2 ≤ n) {d r : RV ℤ} {w : World} (h : w.memo.lookup (n, d.vals, d.probs) = some r) :
    roll (.num n) (.rv d) w = (.ok (.rv r), w) := by
  rw [roll_num_rv, M.map_ok_iff]
  refine ⟨r, ?_, rfl⟩
  unfold rollInt
  rw [if_neg (by omega)]
  unfold rollNat
  have e : (n : ℤ).natAbs = n := Int.natAbs_natCast n
  rw [e, if_neg (by omega), if_neg (by omega), M.bind_apply]
  have hg : memoGet n d w = (.ok (w.memo.lookup (rollKey d n)), w) := rfl
  rw [hg, h]
  rfl

/-- C96. After a roll of at least two dice the table has it. -/
theorem C96_remembers {n : ℕ} (hn : 2 ≤ n) {d r : RV ℤ} {w w' : World} (h : roll (.num n) (.rv d) w = (.ok (.rv r), w')) :
    w'.memo.lookup (n, d.vals, d.probs) = some r := by
  rw [roll_num_rv, M.map_ok_iff] at h
  obtain ⟨q, h, e⟩ := h
  cases e
  unfold rollInt at h
  rw [if_neg (by omega)] at h
  have e : (n : ℤ).natAbs = n := Int.natAbs_natCast n
  rw [e] at h
  obtain ⟨added, e, -, -, hok⟩ := rollNat_added (n + 1) n d w
  rw [h] at e hok
  rw [e]
  exact (hok _ rfl).2 hn

/-- The table has only grown. -/
def MemoGrown (w w' : World) : Prop := Grown w.memo w'.memo

instance : Course MemoGrown where
  refl _ := Grown.refl _
  trans := Grown.trans
  settings _ _ := Grown.refl _
  warn _ := Grown.refl _
  depth _ := Grown.refl _
  out _ _ := Grown.refl _
  dicts _ _ _ := Grown.refl _
  roll fuel n d w := rollNat_grown fuel n d w

/-- C96. Running a program, whatever it does and however it ends, forgets no roll and remembers none twice. -/
theorem C96_program (R : Rules) (n : ℕ) (b : Compiler.Block) (w : World) : Grown w.memo (Spec.run R n b w).2.memo := by
  have h : Drifts MemoGrown (Spec.run R n b) := by
    unfold Spec.run
    refine Drifts.bind (Drifts.modify fun _ => Grown.refl _) fun _ => (block_drifts MemoGrown R n b).bind fun _ =>
      Drifts.bind (m := M.get) (fun _ => Grown.refl _) fun _ => Drifts.pure _
  exact h w

/-- C96. The same of every program that Python is given. -/
theorem C96_python (n : ℕ) (p : Py.Block) (w : World) : Grown w.memo (Exec.unsafeExec n p w).2.memo := by
  have h : Drifts MemoGrown (Exec.unsafeExec n p) := by
    unfold Exec.unsafeExec
    refine Drifts.bind (Drifts.modify fun _ => Grown.refl _) fun _ => (drifts_module (ρ := MemoGrown) n p).bind fun _ =>
      Drifts.bind (m := M.get) (fun _ => Grown.refl _) fun _ => Drifts.pure _
  exact h w

/-- C96. So a roll made before programs were run is still free after them. -/
theorem C96_after_programs {n : ℕ} (hn : 2 ≤ n) {d r : RV ℤ} {w w' : World} (h : roll (.num n) (.rv d) w = (.ok (.rv r), w'))
    (k : ℕ) (ps : List Py.Block) :
    let w2 := ps.foldl (fun v p => (Exec.unsafeExec k p v).2) w'
    roll (.num n) (.rv d) w2 = (.ok (.rv r), w2) := by
  intro w2
  refine C96_remembered hn ?_
  have hg : Grown w'.memo w2.memo := by
    have : ∀ (ps : List Py.Block) (v : World), Grown v.memo (ps.foldl (fun v p => (Exec.unsafeExec k p v).2) v).memo := by
      intro ps
      induction ps with
      | nil => exact fun v => .refl _
      | cons p ps ih => exact fun v => (C96_python k p v).trans (ih _)
    exact this ps w'
  exact hg.lookup (C96_remembers hn h)

/-- C96. In a session of programs no roll is ever remembered twice. -/
theorem C96_distinct (k : ℕ) (ps : List Py.Block) : ((ps.foldl (fun v p => (Exec.unsafeExec k p v).2) {}).memo.map (·.1)).Nodup := by
  have : ∀ (ps : List Py.Block) (v : World), (v.memo.map (·.1)).Nodup →
      ((ps.foldl (fun v p => (Exec.unsafeExec k p v).2) v).memo.map (·.1)).Nodup := by
    intro ps
    induction ps with
    | nil => exact fun v h => h
    | cons p ps ih => exact fun v h => ih _ ((C96_python k p v).nodup h)
  exact this ps {} List.nodup_nil

/-- `output(roll(4, 6))`, twice -/
example :
    let p : Py.Block := .cons (.expr (.call (.name "output".toList) (.cons (.call (.name "roll".toList)
      (.cons (.int "4".toList) (.cons (.int "6".toList) .nil))) .nil))) .nil
    let w := (Exec.unsafeExec 3 p {}).2
    w.memo.map (·.1.1) = [4, 2] ∧ (Exec.unsafeExec 3 p w).2.memo.map (·.1.1) = [4, 2] ∧ w.outs.length = 1 := by decide +kernel

/-- C96. A roll has no more outcomes than there are numbers between the least and the greatest sum. -/
theorem C96_outcomes {w w' : World} (hw : Reachable w) (n : ℤ) (d : RV ℤ) (hd : d.Proper) (hz : ∀ p ∈ d.probs, p ≠ 0) {r : RV ℤ}
    (h : roll (.num n) (.rv d) w = (.ok (.rv r), w')) (h0 : w'.warns = 0) {a b : ℤ} (hab : ∀ v ∈ d.vals, a ≤ v ∧ v ≤ b) :
    (r.vals.length : ℤ) ≤ |n| * (b - a) + 1 := by
  rw [roll_num_rv, M.map_ok_iff] at h
  obtain ⟨q, h, e⟩ := h
  cases e
  have hs := rollInt_spec n d w hw.memoOk
  rw [h] at hs
  have ok := hs.law hd r rfl (Or.inl h0)
  have hsum : ∀ v ∈ r.vals, ∃ xs : List ℤ, xs.length = n.natAbs ∧ (∀ x ∈ xs, x ∈ d.vals) ∧ n.sign * xs.sum = v := by
    intro v hv
    have h1 := (mem_vals_iff ok.proper (ok.nz hz) v).1 hv
    by_contra hno
    refine h1 ?_
    unfold Pr
    rw [ok.law]
    have : ExN n.natAbs d.pairs (fun xs => if n.sign * xs.sum = v then (1 : ℚ) else 0) = ExN n.natAbs d.pairs fun _ => 0 := by
      refine ExN_congr_mem fun xs hl hm => if_neg fun e => hno ⟨xs, hl, fun x hx => ?_, e⟩
      have := hm x hx
      rwa [RV.pairs_map_fst d hd.len] at this
    rw [this]
    have hz : ∀ n : ℕ, ExN n d.pairs (fun _ => (0 : ℚ)) = 0 := by
      intro n
      induction n with
      | zero => rfl
      | succ n ih => simp only [ExN, ih, Ex_const hd.pos]
    exact hz _
  have bound : ∀ xs : List ℤ, (∀ x ∈ xs, x ∈ d.vals) → (xs.length : ℤ) * a ≤ xs.sum ∧ xs.sum ≤ (xs.length : ℤ) * b := by
    intro xs
    induction xs with
    | nil => simp
    | cons x xs ih =>
      intro hx
      have h1 := hab x (hx x List.mem_cons_self)
      have h2 := ih fun y hy => hx y (List.mem_cons_of_mem _ hy)
      rw [List.sum_cons, List.length_cons]
      push_cast
      constructor <;> nlinarith
  have hnd : r.vals.Nodup := List.Pairwise.imp (fun h => ne_of_lt h) ok.proper.sorted
  have hcard : ∀ lo hi : ℤ, (∀ v ∈ r.vals, lo ≤ v ∧ v ≤ hi) → (r.vals.length : ℤ) ≤ hi - lo + 1 := by
    intro lo hi hb
    have hsub : r.vals.toFinset ⊆ Finset.Icc lo hi := fun v hv => by
      rw [Finset.mem_Icc]
      exact hb v (List.mem_toFinset.1 hv)
    have hc := Finset.card_le_card hsub
    rw [List.toFinset_card_of_nodup hnd, Int.card_Icc] at hc
    obtain ⟨v, hv⟩ := List.exists_mem_of_ne_nil _ ok.proper.nonempty
    have := hb v hv
    omega
  obtain ⟨v0, hv0⟩ := List.exists_mem_of_ne_nil _ hd.nonempty
  have hle : a ≤ b := (hab v0 hv0).1.trans (hab v0 hv0).2
  rcases lt_trichotomy n 0 with hn | hn | hn
  · have hb := hcard (-(|n| * b)) (-(|n| * a)) fun v hv => by
      obtain ⟨xs, hl, hx, rfl⟩ := hsum v hv
      have := bound xs hx
      rw [hl, Int.natCast_natAbs] at this
      rw [Int.sign_eq_neg_one_of_neg hn]
      constructor <;> linarith
    linarith
  · have hb := hcard 0 0 fun v hv => by
      obtain ⟨xs, hl, hx, rfl⟩ := hsum v hv
      rw [hn]
      simp
    have : 0 ≤ |n| * (b - a) := mul_nonneg (abs_nonneg _) (by omega)
    omega
  · have hb := hcard (|n| * a) (|n| * b) fun v hv => by
      obtain ⟨xs, hl, hx, rfl⟩ := hsum v hv
      have := bound xs hx
      rw [hl, Int.natCast_natAbs] at this
      rw [Int.sign_eq_one_of_pos hn]
      constructor <;> linarith
    linarith

/-- 10 six-sided dice: all of 10 … 60. -/
example : (match (roll (.num 10) (.rv ⟨[1, 2, 3, 4, 5, 6], [1, 1, 1, 1, 1, 1], none⟩) {}).1 with
    | .ok (.rv r) => r.vals.length | _ => 0) = 10 * (6 - 1) + 1 := by decide +kernel

/-- How many values an argument takes: a die given for a number its outcomes; a pool of `n` dice with `k` faces given for a sequence the
multisets of `n` of the `k`; everything else one. -/
def choiceCount : Option Ty × Obj → ℕ
  | (some .N, .rv r) => r.vals.length
  | (some .S, .rv r) => Nat.choose (r.source.2.vals.length + r.source.1 - 1) r.source.1
  | _ => 1

theorem combosWR_length {α : Type} (pool : List α) (n : ℕ) : (RV.combosWithReplacement pool n).length = Nat.multichoose pool.length n := by
  induction n generalizing pool with
  | zero => rw [Pool.combos_zero]; simp
  | succ n ihn =>
    induction pool with
    | nil => rw [Pool.combos_nil]; simp
    | cons x xs ihx =>
      rw [Pool.combos_cons, List.length_append, List.length_map, ihn, ihx, List.length_cons, Nat.multichoose_succ_succ]
      omega

theorem poolEnumeration_length {n : ℕ} {X : RV ℤ} (hX : X.Proper) {e : List (List ℤ)} (h : IsPoolEnumeration n X.vals e) :
    e.length = Nat.choose (X.vals.length + n - 1) n := by
  have hp : X.vals.reverse.Pairwise (· > ·) := by rw [List.pairwise_reverse]; exact hX.sorted
  have : e.Perm (RV.combosWithReplacement X.vals.reverse n) := by
    refine (List.perm_ext_iff_of_nodup h.1 (combosWR_nodup hp n)).2 fun xs => ?_
    rw [h.2]
    constructor
    · rintro ⟨h1, h2, h3⟩
      exact combosWR_complete hp n xs h1 h2 fun x hx => by simpa using h3 x hx
    · intro h
      obtain ⟨h1, h2⟩ := Pool.combos_mem h
      exact ⟨h1, Pool.combos_sorted hp h, fun x hx => by simpa using h2 x hx⟩
  rw [this.length_eq, combosWR_length, List.length_reverse, Nat.multichoose_eq]

theorem cartesian_length {α : Type} (l : List (List α)) : (cartesian l).length = (l.map List.length).prod := by
  induction l with
  | nil => rfl
  | cons xs l ih =>
    rw [cartesian, List.length_flatMap, List.map_cons, List.prod_cons, ← ih]
    simp

/-- C96. A function is called as often as the product of the numbers of values of its arguments, no more and no less. -/
theorem C96_calls {f : List Obj → M (Option Obj)} (hf : ∀ c w, (f c w).2.trace = w.trace) {args : List (Option Ty × Obj)}
    (hab : ∀ a ∈ args, castAborts a = false) (hargs : ∀ a ∈ args, ArgOk a) {w w' : World} {o : Option Obj}
    (h : castCall (logged f) args w = (.ok o, w')) : w'.trace.length = w.trace.length + (args.map choiceCount).prod := by
  obtain ⟨vs, h1, h2⟩ := C15_calls hf hab hargs h
  rw [h2, List.length_append, cartesian_length]
  congr 2
  clear h h2 hab
  induction h1 with
  | nil => rfl
  | @cons a l as ls ha _ ih =>
    rw [List.map_cons, List.map_cons, ih fun b hb => hargs b (List.mem_cons_of_mem _ hb)]
    congr 1
    have ok := hargs a List.mem_cons_self
    obtain ⟨ty, v⟩ := a
    rcases ty with _ | ty
    · cases v <;> (cases ha; rfl)
    · cases ty <;> cases v <;> first
        | (cases ha; rfl)
        | (obtain ⟨e, rfl, he, -⟩ := ha
           rw [List.length_map]
           exact poolEnumeration_length ok he)
        | (change l = _ at ha
           rw [ha, List.length_map]
           rfl)

/-- The function is called 6 · 20 times for a `d6` and three four-sided dice. -/
example : (castCall (logged fun _ => pure (some (.num 1)))
    [(some .N, .rv ⟨[1, 2, 3, 4, 5, 6], [1, 1, 1, 1, 1, 1], none⟩),
     (some .S, .rv ⟨[3, 4, 5, 6, 7, 8, 9, 10, 11, 12], [1, 3, 6, 10, 12, 12, 10, 6, 3, 1], some (3, [1, 2, 3, 4], [1, 1, 1, 1])⟩)] {}).2.trace.length =
    6 * Nat.choose (4 + 3 - 1) 3 := by decide +kernel

end PythonDice
