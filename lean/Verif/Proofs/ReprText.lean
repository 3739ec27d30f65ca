import Verif.Proofs.Repr
import Verif.Spec.Numeral

/-!
# The text of a float
-/

namespace PythonDice
open Spec

theorem digitText_digit {ds : List ℕ} (h : ∀ d ∈ ds, d < 10) : ∀ c ∈ digitText ds, IsDigit c := by
  intro c hc
  obtain ⟨d, hd, rfl⟩ := List.mem_map.1 hc
  have := h d hd
  interval_cases d <;> exact ⟨by decide, by decide⟩

theorem decDigits_lt (n : ℕ) : ∀ d ∈ decDigits n, d < 10 := by
  intro d hd
  unfold decDigits at hd
  split at hd
  · rw [List.mem_singleton] at hd; omega
  · exact Nat.digits_lt_base (by norm_num) (List.mem_reverse.1 hd)

theorem digitsValue_append (a b : List Char) : digitsValue (a ++ b) = digitsValue a * 10 ^ b.length + digitsValue b := by
  induction b using List.reverseRecOn with
  | nil => simp [digitsValue]
  | append_singleton b c ih =>
    have h : ∀ (l : List Char), digitsValue (l ++ [c]) = 10 * digitsValue l + (c.toNat - 48) := by
      intro l; simp [digitsValue, List.foldl_append]
    rw [← List.append_assoc, h, h, ih, List.length_append, List.length_singleton, pow_succ]
    ring

theorem digitsValue_decDigits (n : ℕ) : digitsValue (digitText (decDigits n)) = n := by
  induction n using Nat.strongRecOn with
  | _ n ih =>
    rcases Nat.lt_or_ge n 10 with h | h
    · rw [decDigits_small h]
      interval_cases n <;> rfl
    · rw [decDigits_step h, digitText_append, digitsValue_append, ih _ (by omega)]
      have h2 : n % 10 < 10 := Nat.mod_lt _ (by norm_num)
      have h1 : digitsValue (digitText [n % 10]) = n % 10 := by
        generalize n % 10 = d at *
        interval_cases d <;> rfl
      rw [h1]
      simp only [digitText, List.map_cons, List.map_nil, List.length_singleton, pow_one]
      omega

theorem digitsValue_zeros (k : ℕ) : digitsValue (List.replicate k '0') = 0 := by
  induction k with
  | zero => rfl
  | succ k ih =>
    rw [List.replicate_succ', digitsValue_append, ih]
    rfl

theorem digitText_length (ds : List ℕ) : (digitText ds).length = ds.length := List.length_map ..

theorem exponentText_spec (n : ℕ) : (∀ c ∈ exponentText n, IsDigit c) ∧ 2 ≤ (exponentText n).length ∧ digitsValue (exponentText n) = n := by
  unfold exponentText
  split
  · rename_i h
    interval_cases n <;> refine ⟨?_, by decide, by decide⟩ <;> intro c hc <;> simp [decDigits, digitText, charOf] at hc <;>
      rcases hc with rfl | rfl <;> exact ⟨by decide, by decide⟩
  · rename_i h
    refine ⟨digitText_digit (decDigits_lt n), ?_, digitsValue_decDigits n⟩
    rw [digitText_length, decDigits_step (by omega), List.length_append, List.length_singleton]
    have := decDigits_pos (n / 10)
    omega

/-- How large a number with these digits is. -/
theorem decimal_range {n : ℕ} (hn : 0 < n) (k : ℤ) :
    (10 : ℚ) ^ ((decDigits n).length + k - 1) ≤ decimalValue (n, k) ∧ decimalValue (n, k) < 10 ^ ((decDigits n).length + k) := by
  have hl : (decDigits n).length = (Nat.digits 10 n).length := by
    unfold decDigits
    rw [if_neg (by omega), List.length_reverse]
  have hpos := decDigits_pos n
  have hp := ten_zpow_pos k
  have h1 : n < 10 ^ (decDigits n).length := by rw [hl]; exact Nat.lt_base_pow_length_digits (by norm_num)
  have h2 : 10 ^ ((decDigits n).length - 1) ≤ n := by
    have := Nat.base_pow_length_digits_le 10 n (by norm_num) (by omega)
    rw [← hl, show (decDigits n).length = (decDigits n).length - 1 + 1 by omega, pow_succ, Nat.mul_comm] at this
    exact Nat.le_of_mul_le_mul_left this (by norm_num)
  have h1' : (n : ℚ) < 10 ^ (decDigits n).length := by exact_mod_cast h1
  have h2' : (10 : ℚ) ^ ((decDigits n).length - 1) ≤ n := by exact_mod_cast h2
  unfold decimalValue
  constructor
  · rw [show ((decDigits n).length : ℤ) + k - 1 = (((decDigits n).length - 1 : ℕ) : ℤ) + k by omega, zpow_add₀ (by norm_num), zpow_natCast]
    exact mul_le_mul_of_nonneg_right h2' hp.le
  · rw [zpow_add₀ (by norm_num), zpow_natCast]
    exact mul_lt_mul_of_pos_right h1' hp

theorem zeros_digit (k : ℕ) : ∀ c ∈ List.replicate k '0', IsDigit c := by
  intro c hc
  rw [List.eq_of_mem_replicate hc]
  exact ⟨by decide, by decide⟩

/-- The text is that of the shortest decimal. -/
theorem floatText_spec (neg : Bool) {x : ℚ} (hx : IsWide x) (h0 : 0 < x) : FloatText neg (decimalValue (shortDecimal x)) (floatText neg x) := by
  obtain ⟨s1, s2, _, _⟩ := shortDecimal_spec hx h0
  unfold floatText
  rw [if_neg h0.ne']
  generalize shortDecimal x = c at *
  obtain ⟨n, k⟩ := c
  simp only at s2 ⊢
  have hn : 0 < n := by
    rcases Nat.eq_zero_or_pos n with rfl | h
    · exact absurd rfl s2
    · exact h
  obtain ⟨r1, r2⟩ := decimal_range hn k
  have hv : 0 < decimalValue (n, k) := lt_of_lt_of_le (ten_zpow_pos _) r1
  have hlen := decDigits_pos n
  have hdig := decDigits_lt n
  have hval := digitsValue_decDigits n
  generalize hds : decDigits n = ds at *
  generalize hpt : (ds.length : ℤ) + k = point at *
  have hk : k = point - ds.length := by omega
  have hrange : -4 < point ∧ point ≤ 16 ↔ decimalValue (n, k) = 0 ∨ 1 / 10 ^ 4 ≤ decimalValue (n, k) ∧ decimalValue (n, k) < 10 ^ 16 := by
    rw [or_iff_right hv.ne']
    constructor
    · rintro ⟨h1, h2⟩
      constructor
      · refine le_trans ?_ r1
        rw [show (1 : ℚ) / 10 ^ 4 = 10 ^ (-4 : ℤ) by norm_num]
        exact zpow_le_zpow_right₀ (by norm_num) (by omega)
      · refine lt_of_lt_of_le r2 ?_
        rw [show (10 : ℚ) ^ 16 = 10 ^ (16 : ℤ) by norm_num]
        exact zpow_le_zpow_right₀ (by norm_num) h2
    · rintro ⟨h1, h2⟩
      constructor
      · have h3 := lt_of_le_of_lt h1 r2
        rw [show (1 : ℚ) / 10 ^ 4 = 10 ^ (-4 : ℤ) by norm_num] at h3
        exact (zpow_lt_zpow_iff_right₀ (by norm_num)).1 h3
      · have h3 := lt_of_le_of_lt r1 h2
        rw [show (10 : ℚ) ^ 16 = 10 ^ (16 : ℤ) by norm_num] at h3
        have := (zpow_lt_zpow_iff_right₀ (by norm_num)).1 h3
        omega
  unfold FloatText
  generalize (if neg = true then ['-'] else ([] : List Char)) = sg
  by_cases c1 : ¬(-4 < point ∧ point ≤ 16)
  · -- an exponent
    obtain ⟨x1, x2, x3⟩ := exponentText_spec (point - 1).natAbs
    have hcut : digitText (ds.take 1) ++ digitText (ds.drop 1) = digitText ds := by
      rw [← digitText_append, List.take_append_drop]
    refine ⟨digitText (ds.take 1), digitText (ds.drop 1), 'e' :: (if point - 1 < 0 then '-' else '+') :: exponentText (point - 1).natAbs, point - 1,
      ?_, ?_, ?_, ?_, Or.inr ⟨_, x1, x2, rfl, x3⟩, fun h => absurd h (by simp), fun _ => ?_, ⟨fun h => absurd h (by simp), fun h => absurd (hrange.2 h) c1⟩, ?_⟩
    · have hnil : digitText (ds.drop 1) = [] ↔ ds.length ≤ 1 := by
        rw [← List.length_eq_zero_iff, digitText_length, List.length_drop]
        omega
      rw [if_neg c1]
      simp only [hnil]
      simp only [List.append_assoc, List.cons_append, List.nil_append]
    · intro h
      have := congrArg List.length h
      rw [digitText_length, List.length_take, List.length_nil] at this
      omega
    · exact digitText_digit fun d hd => hdig d (List.mem_of_mem_take hd)
    · exact digitText_digit fun d hd => hdig d (List.mem_of_mem_drop hd)
    · rw [digitText_length, List.length_take]
      omega
    · rw [hcut, hval, digitText_length, List.length_drop, decimalValue]
      have e : point - 1 - ((ds.length - 1 : ℕ) : ℤ) = k := by omega
      rw [e]
  rw [not_not] at c1
  rw [if_pos c1]
  split_ifs with c2 c3
  · -- zeros after the point
    refine ⟨['0'], List.replicate (-point).toNat '0' ++ digitText ds, [], 0, ?_, by simp, by simp [IsDigit], ?_, Or.inl ⟨rfl, rfl⟩, ?_,
      fun h => absurd rfl h, ⟨fun _ => hrange.1 c1, fun _ => rfl⟩, ?_⟩
    · rw [if_neg (by
        intro h
        have := congrArg List.length h
        rw [List.length_append, digitText_length, List.length_nil] at this
        omega)]
      simp
    · intro c hc
      rcases List.mem_append.1 hc with hc | hc
      · exact zeros_digit _ c hc
      · exact digitText_digit hdig c hc
    · intro _ h
      have := congrArg List.length h
      rw [List.length_append, digitText_length, List.length_nil] at this
      omega
    · rw [digitsValue_append, digitsValue_append, digitsValue_zeros, hval, List.length_append, digitText_length, List.length_replicate]
      have e : (0 : ℤ) - (((-point).toNat + ds.length : ℕ) : ℤ) = k := by push_cast; omega
      rw [e]
      simp [digitsValue, decimalValue]
  · -- zeros before the point
    refine ⟨digitText ds ++ List.replicate (point - ds.length).toNat '0', ['0'], [], 0, by simp, ?_, ?_, by simp [IsDigit], Or.inl ⟨rfl, rfl⟩, by simp,
      fun h => absurd rfl h, ⟨fun _ => hrange.1 c1, fun _ => rfl⟩, ?_⟩
    · intro h
      have := congrArg List.length h
      rw [List.length_append, digitText_length, List.length_nil] at this
      omega
    · intro c hc
      rcases List.mem_append.1 hc with hc | hc
      · exact digitText_digit hdig c hc
      · exact zeros_digit _ c hc
    · rw [digitsValue_append, digitsValue_append, digitsValue_zeros, hval, List.length_replicate, decimalValue]
      have e : k = ((point - ds.length).toNat : ℤ) := by omega
      rw [e, zpow_natCast]
      have e2 : digitsValue ['0'] = 0 := rfl
      rw [e2]
      push_cast
      simp only [List.length_singleton]
      norm_num
      ring
  · -- the point between digits
    have hcut : digitText (ds.take point.toNat) ++ digitText (ds.drop point.toNat) = digitText ds := by
      rw [← digitText_append, List.take_append_drop]
    refine ⟨digitText (ds.take point.toNat), digitText (ds.drop point.toNat), [], 0, ?_, ?_, ?_, ?_, Or.inl ⟨rfl, rfl⟩, ?_,
      fun h => absurd rfl h, ⟨fun _ => hrange.1 c1, fun _ => rfl⟩, ?_⟩
    · rw [if_neg (by
        intro h
        have := congrArg List.length h
        rw [digitText_length, List.length_drop, List.length_nil] at this
        omega)]
      simp
    · intro h
      have := congrArg List.length h
      rw [digitText_length, List.length_take, List.length_nil] at this
      omega
    · exact digitText_digit fun d hd => hdig d (List.mem_of_mem_take hd)
    · exact digitText_digit fun d hd => hdig d (List.mem_of_mem_drop hd)
    · intro _ h
      have := congrArg List.length h
      rw [digitText_length, List.length_drop, List.length_nil] at this
      omega
    · rw [hcut, hval, digitText_length, List.length_drop, decimalValue]
      have e : (0 : ℤ) - ((ds.length - point.toNat : ℕ) : ℤ) = k := by omega
      rw [e]

theorem floatText_zero (neg : Bool) : FloatText neg 0 (floatText neg 0) := by
  refine ⟨['0'], ['0'], [], 0, ?_, by simp, by simp [IsDigit], by simp [IsDigit], Or.inl ⟨rfl, rfl⟩, by simp, fun h => absurd rfl h, by simp, ?_⟩
  · unfold floatText
    simp
  · simp [digitsValue]

/-! ## A text has one value -/

/-- The text does not begin with a digit. -/
def DigitsStop (r : List Char) : Prop := ∀ c, r.head? = some c → ¬IsDigit c

theorem split_unique : ∀ {a b r s : List Char}, a ++ r = b ++ s → (∀ c ∈ a, IsDigit c) → (∀ c ∈ b, IsDigit c) → DigitsStop r → DigitsStop s → a = b ∧ r = s
  | [], [], _, _, h, _, _, _, _ => ⟨rfl, h⟩
  | [], d :: b, r, s, h, _, hb, hr, _ => by
    rw [List.nil_append] at h
    exact absurd (hb d List.mem_cons_self) (hr d (by rw [h]; rfl))
  | c :: a, [], r, s, h, ha, _, _, hs => by
    rw [List.nil_append] at h
    exact absurd (ha c List.mem_cons_self) (hs c (by rw [← h]; rfl))
  | c :: a, d :: b, r, s, h, ha, hb, hr, hs => by
    rw [List.cons_append, List.cons_append] at h
    injection h with h1 h2
    obtain ⟨h3, h4⟩ := split_unique h2 (fun x hx => ha x (List.mem_cons_of_mem _ hx)) (fun x hx => hb x (List.mem_cons_of_mem _ hx)) hr hs
    exact ⟨by rw [h1, h3], h4⟩

theorem exponent_stops {ex : ℤ} {t : List Char} (h : ExponentText ex t) : DigitsStop t := by
  rcases h with ⟨rfl, _⟩ | ⟨ds, _, _, rfl, _⟩
  · intro c hc; cases hc
  · intro c hc
    cases hc
    rintro ⟨_, h⟩
    exact absurd h (by decide)

theorem exponent_unique {a b : ℤ} {t : List Char} (ha : ExponentText a t) (hb : ExponentText b t) : a = b := by
  rcases ha with ⟨rfl, rfl⟩ | ⟨ds, _, _, rfl, h1⟩
  · rcases hb with ⟨_, rfl⟩ | ⟨_, _, _, h, _⟩
    · rfl
    · cases h
  · rcases hb with ⟨h, _⟩ | ⟨ds', _, _, h, h2⟩
    · cases h
    · injection h with _ h
      injection h with h3 h4
      subst h4
      rw [h1] at h2
      split_ifs at h3 with ha hb hb
      · omega
      · exact absurd h3 (by decide)
      · exact absurd h3 (by decide)
      · omega

theorem fraction_stops (f : List Char) {ex : ℤ} {t : List Char} (h : ExponentText ex t) : DigitsStop ((if f = [] then [] else '.' :: f) ++ t) := by
  split
  · exact exponent_stops h
  · intro c hc
    cases hc
    rintro ⟨h, _⟩
    exact absurd h (by decide)

theorem fraction_unique {f g t u : List Char} {a b : ℤ} (hf : ∀ c ∈ f, IsDigit c) (hg : ∀ c ∈ g, IsDigit c) (ht : ExponentText a t)
    (hu : ExponentText b u) (h : (if f = [] then [] else '.' :: f) ++ t = (if g = [] then [] else '.' :: g) ++ u) : f = g ∧ t = u := by
  have hdot : ∀ {c : ℤ} {w l : List Char}, ExponentText c w → w ≠ '.' :: l := by
    rintro c w l (⟨rfl, _⟩ | ⟨_, _, _, rfl, _⟩) h
    · cases h
    · injection h with h _
      exact absurd h (by decide)
  split_ifs at h with h1 h2 h2
  · exact ⟨by rw [h1, h2], h⟩
  · exact absurd h (hdot ht)
  · exact absurd h.symm (hdot hu)
  · rw [List.cons_append, List.cons_append] at h
    injection h with _ h
    exact split_unique h hf hg (exponent_stops ht) (exponent_stops hu)

theorem floatText_value {neg : Bool} {v w : ℚ} {cs : List Char} (hv : FloatText neg v cs) (hw : FloatText neg w cs) : v = w := by
  obtain ⟨a, f, t, e, h1, _, h3, h4, h5, _, _, _, h9⟩ := hv
  obtain ⟨b, g, u, d, k1, _, k3, k4, k5, _, _, _, k9⟩ := hw
  rw [h1] at k1
  simp only [List.append_assoc] at k1
  have k1 := List.append_cancel_left k1
  obtain ⟨rfl, k2⟩ := split_unique k1 h3 k3 (fraction_stops f h5) (fraction_stops g k5)
  obtain ⟨rfl, rfl⟩ := fraction_unique h4 k4 h5 k5 k2
  rw [h9, k9, exponent_unique h5 k5]

end PythonDice
