import Verif.Proofs.NaiveLib
import Verif.Proofs.Calm

/-! Computations that give the same die: laws of pools. -/

namespace PythonDice
open Spec
open Spec.Naive (Law Val mean sure push andThen uniform draws support rolls)

/-- A die as the constructor makes them of positive weights: outcomes in ascending order, weights in lowest terms. -/
structure GoodDie (d : RV ℤ) : Prop where
  len : d.vals.length = d.probs.length
  sorted : d.vals.Pairwise (· < ·)
  nonempty : d.vals ≠ []
  pos : ∀ p ∈ d.probs, 0 < p
  coprime : Coprime d.probs

/-- Two computations, begun in any states with such settings, give dice with the same outcomes and the same weights, unless probabilities were
rounded (which is logged) or the limiter of probabilities overflowed. -/
def SameDice (I J : Settings → Prop) (m m' : M Obj) : Prop :=
  ∀ w w', Reachable w → Reachable w' → I w.settings → J w'.settings → (m w).2.warns = 0 → (m' w').2.warns = 0 →
    (m w).1 = .error .overflow ∨ (m' w').1 = .error .overflow ∨
    ∃ x y : RV ℤ, (m w).1 = .ok (.rv x) ∧ (m' w').1 = .ok (.rv y) ∧ x.vals = y.vals ∧ x.probs = y.probs

namespace Enum

/-- The law of a die. -/
def lawOf (d : RV ℤ) : Law := d.pairs.map fun x => (x.1, (x.2 : ℚ) / mass d.pairs)

theorem GoodDie.proper {d : RV ℤ} (h : GoodDie d) : d.Proper := by
  refine ⟨h.len, h.sorted, h.nonempty, ?_⟩
  rw [RV.mass_eq_probs h.len]
  obtain ⟨v, hv⟩ := List.exists_mem_of_ne_nil _ h.nonempty
  have hne : d.probs ≠ [] := by
    intro e
    have := h.len
    rw [e, List.length_nil, List.length_eq_zero_iff] at this
    exact h.nonempty this
  obtain ⟨p, hp⟩ := List.exists_mem_of_ne_nil _ hne
  have h1 := List.single_le_sum (fun x _ => Nat.zero_le x) p hp
  have h2 := h.pos p hp
  exact_mod_cast (by omega : d.probs.sum ≠ 0)

theorem lawOf_mean (l : List (ℤ × ℕ)) (c : ℚ) (f : ℤ → ℚ) : mean (l.map fun x => (x.1, (x.2 : ℚ) / c)) f = wsum l f / c := by
  induction l with
  | nil => simp [wsum]
  | cons x l ih => rw [List.map_cons, mean_cons, ih, wsum_cons]; ring

theorem rep_good {d : RV ℤ} (h : GoodDie d) : Rep (.rv d) (.die (lawOf d) none) := by
  have hp := GoodDie.proper h
  refine ⟨⟨hp, ⟨h.len, h.sorted, h.nonempty, ?_⟩, fun p hpp => (h.pos p hpp).ne', ?_, fun f => ?_⟩, fun _ _ e => by cases e⟩
  · intro _
    exact h.coprime
  · intro x hx
    obtain ⟨y, hy, rfl⟩ := List.mem_map.1 hx
    have h1 : (0 : ℚ) < y.2 := by exact_mod_cast h.pos y.2 (List.of_mem_zip hy).2
    have h2 : 0 < mass d.pairs := by
      rw [RV.mass_eq_probs h.len]
      have := hp.pos
      rw [RV.mass_eq_probs h.len] at this
      exact lt_of_le_of_ne (by positivity) this.symm
    exact div_pos h1 h2
  · rw [lawOf, lawOf_mean]; rfl

theorem Rep.to {o : Obj} {l m : Law} {p : Option (ℕ × Law)} (h : Rep o (.die l p)) (hm : Pos m) (e : ∀ f, mean m f = mean l f) :
    Rep o (.die m none) := by
  obtain ⟨r, rfl, h1, _⟩ := h.die_inv
  exact ⟨h1.congr hm e, fun _ _ e => by cases e⟩

variable {I J : Settings → Prop}

theorem Full.next {m : M Obj} {f : Obj → M Obj} {u v : Val} (hm : Full I m fun o => Rep o u) (hf : ∀ o, Rep o u → Full I (f o) fun y => Rep y v)
    (hc : ∀ o, Calm (f o)) : Full I (m >>= f) fun y => Rep y v := Full.bind hm hf fun o => (hc o).triple

theorem same_dice {m m' : M Obj} {l l' : Law} {p p' : Option (ℕ × Law)} (h : Full I m fun o => Rep o (.die l p))
    (h' : Full J m' fun o => Rep o (.die l' p')) (e : ∀ f, mean l f = mean l' f) : SameDice I J m m' := by
  intro w w' hw hw' hi hi' h0 h0'
  rcases h.2 w hw hi h0 with ⟨o, ho⟩ | ho
  swap
  · exact .inl ho
  rcases h'.2 w' hw' hi' h0' with ⟨o', ho'⟩ | ho'
  swap
  · exact .inr (.inl ho')
  refine .inr (.inr ?_)
  obtain ⟨x, rfl, hx, _⟩ := (((h.1 w hw hi).2.2 o ho).2 h0).die_inv
  obtain ⟨y, rfl, hy, _⟩ := (((h'.1 w' hw' hi').2.2 o' ho').2 h0').die_inv
  obtain ⟨e1, e2⟩ := Canonical_law_ext hx.canon hy.canon hx.proper.pos hy.proper.pos hx.nz hy.nz fun f => by rw [hx.law, hy.law, e]
  exact ⟨x, y, ho, ho', e1, e2⟩

/-! ## Means of pools -/

theorem mean_comm {α β : Type} (l : List (α × ℚ)) (m : List (β × ℚ)) (f : α → β → ℚ) :
    (mean l fun x => mean m fun y => f x y) = mean m fun y => mean l fun x => f x y := by
  induction l with
  | nil =>
    simp only [mean_nil]
    rw [mean_const, zero_mul]
  | cons x l ih =>
    rw [mean_cons, ih, ← mean_mul_left, ← mean_add]
    congr 1

/-- The mean over the sum of so many dice. -/
def sumMean (b : Law) (n : ℕ) (f : ℤ → ℚ) : ℚ := mean (draws b n) fun xs => f xs.sum

theorem sumMean_zero (b : Law) (f : ℤ → ℚ) : sumMean b 0 f = f 0 := by rw [sumMean, mean_draws_zero]; rfl

theorem sumMean_succ (b : Law) (n : ℕ) (f : ℤ → ℚ) : sumMean b (n + 1) f = mean b fun x => sumMean b n fun y => f (x + y) := by
  rw [sumMean, mean_draws_succ]
  rfl

theorem sumMean_add (b : Law) (n m : ℕ) (f : ℤ → ℚ) : sumMean b (n + m) f = sumMean b n fun x => sumMean b m fun y => f (x + y) := by
  induction n generalizing f with
  | zero => simp [sumMean_zero]
  | succ n ih =>
    rw [Nat.succ_add, sumMean_succ, sumMean_succ]
    congr 1
    funext x
    rw [ih]
    simp only [add_assoc]

theorem sumMean_mul (b : Law) (n m : ℕ) (s : ℤ) (c : Law) (hc : ∀ f, mean c f = sumMean b m fun x => f (s * x)) (f : ℤ → ℚ) :
    sumMean c n f = sumMean b (n * m) fun x => f (s * x) := by
  induction n generalizing f with
  | zero => simp [sumMean_zero]
  | succ n ih =>
    rw [sumMean_succ, hc, Nat.succ_mul, Nat.add_comm, sumMean_add]
    congr 1
    funext x
    rw [ih]
    simp only [mul_add]

/-- Sums of pools of independent sums. -/
theorem sumMean_plus (a b c : Law) (n : ℕ) (hc : ∀ f, mean c f = mean a fun x => mean b fun y => f (x + y)) (f : ℤ → ℚ) :
    sumMean c n f = sumMean a n fun x => sumMean b n fun y => f (x + y) := by
  induction n generalizing f with
  | zero => simp [sumMean_zero]
  | succ n ih =>
    rw [sumMean_succ, hc, sumMean_succ]
    congr 1
    funext x
    simp only [ih]
    have : ∀ g : ℤ → ℤ → ℚ, (mean b fun y => sumMean a n fun u => g y u) = sumMean a n fun u => mean b fun y => g y u :=
      fun g => mean_comm _ _ _
    rw [this]
    congr 1
    funext u
    rw [sumMean_succ]
    congr 1
    funext y
    congr 1
    funext v
    congr 1
    ring

theorem sumMean_push (b c : Law) (g : ℤ → ℤ) (s t : ℤ) (hg : ∀ x, g x = s * x + t) (hc : ∀ f, mean c f = mean b fun x => f (g x)) (n : ℕ)
    (f : ℤ → ℚ) : sumMean c n f = sumMean b n fun x => f (s * x + n * t) := by
  induction n generalizing f with
  | zero => simp [sumMean_zero]
  | succ n ih =>
    rw [sumMean_succ, hc, sumMean_succ]
    congr 1
    funext x
    rw [ih]
    congr 1
    funext y
    rw [hg]
    congr 1
    push_cast
    ring

theorem mean_rolls (b : Law) (k : ℤ) (f : ℤ → ℚ) : mean (rolls k b) f = sumMean b k.natAbs fun x => f (k.sign * x) := by
  rw [rolls, mean_push, sumMean]
  refine mean_congr fun xs hxs => ?_
  rcases lt_trichotomy k 0 with h | h | h
  · rw [if_pos h, Int.sign_eq_neg_one_of_neg h, neg_one_mul]
  · subst h
    have : xs.1 = [] := by
      have := (mem_fst_draws.1 (List.mem_map_of_mem (f := Prod.fst) hxs)).1
      simpa using this
    rw [this]; rfl
  · rw [if_neg (by omega), Int.sign_eq_one_of_pos h, one_mul]

theorem pos_rolls {b : Law} (h : Pos b) (k : ℤ) : Pos (rolls k b) := (h.draws _).push _

/-- Rolling `k` dice. -/
theorem full_rolls (k : ℤ) {o : Obj} {l : Law} {p : Option (ℕ × Law)} (h : Rep o (.die l p)) :
    Full I (roll (.num k) o) fun y => Rep y (.die (rolls k l) none) := by
  have hl : Pos l := by obtain ⟨_, _, h, _⟩ := h.die_inv; exact h.pos
  refine Full.mono (full_roll (n := .num k) (u := .num k) rfl h) fun y hy => ?_
  have hv : Naive.rollVal (.num k) (.die l p) = Naive.rollNum k (.die l p) l := rfl
  rw [hv] at hy
  unfold Naive.rollNum at hy
  split_ifs at hy with h1 h2
  · subst h1
    refine hy.to (pos_rolls hl 1) fun f => ?_
    rw [mean_rolls]
    simp [sumMean_succ, sumMean_zero]
  · exact hy.to (pos_rolls hl k) fun f => rfl
  · exact hy.to (pos_rolls hl k) fun f => rfl

/-- An operation that is possible for all numbers. -/
theorem full_op {op : Compiler.BinOp} (hop : op ≠ .at_) (hp : ∀ x y, Naive.possible op x y = true) {a b : Obj} {l m : Law}
    {p q : Option (ℕ × Law)} (ha : Rep a (.die l p)) (hb : Rep b (.die m q)) :
    Full I (binop (libOp op) a b) fun y => Rep y (Naive.one (andThen l fun x => push (fun y => Naive.arith op x y) m)) :=
  full_binop hop ha hb fun x _ y _ => hp x y

theorem full_opNum {op : Compiler.BinOp} (hop : op ≠ .at_) (hp : ∀ x y, Naive.possible op x y = true) {a : Obj} (c : ℤ) {l : Law}
    {p : Option (ℕ × Law)} (ha : Rep a (.die l p)) :
    Full I (binop (libOp op) a (.num c)) fun y => Rep y (Naive.one (push (fun x => Naive.arith op x c) l)) :=
  full_binop (b := .num c) (v := .num c) hop ha rfl fun x _ y _ => hp x y

theorem full_numOp {op : Compiler.BinOp} (hop : op ≠ .at_) (hp : ∀ x y, Naive.possible op x y = true) {a : Obj} (c : ℤ) {l : Law}
    {p : Option (ℕ × Law)} (ha : Rep a (.die l p)) :
    Full I (binop (libOp op) (.num c) a) fun y => Rep y (Naive.one (push (fun x => Naive.arith op c x) l)) :=
  full_binop (a := .num c) (u := .num c) hop rfl ha fun x _ y _ => hp x y

theorem full_minus {a : Obj} {l : Law} {p : Option (ℕ × Law)} (ha : Rep a (.die l p)) :
    Full I (negOp a) fun y => Rep y (Naive.one (push (fun x => -x) l)) := full_negOp ha rfl

/-! ## Functions of numbers called with dice -/

theorem callAll_total {f : List Val → Option (Option Val)} {G : List Val → Option Val} {cs : List (List Val × ℚ)}
    (h : ∀ c ∈ cs, f c.1 = some (G c.1)) : Naive.callAll f cs = some (push G cs) := by
  induction cs with
  | nil => rfl
  | cons c cs ih =>
    rw [Naive.callAll, h c (by simp), ih fun c hc => h c (by simp [hc])]
    rfl

theorem mixed_sure {cs : List (List Val × ℚ)} (hcs : Pos cs) {g : List Val → ℤ} (h1 : mean cs (fun _ => 1) = 1) :
    ∃ q, Naive.mixed (push (fun vs => some (Val.num (g vs))) cs) = Naive.one q ∧ Pos q ∧ ∀ f, mean q f = mean cs fun vs => f (g vs) := by
  have hm : ∀ f, mean (andThen (push (fun vs => some (Val.num (g vs))) cs) Naive.outcomes) f = mean cs fun vs => f (g vs) := by
    intro f
    rw [mean_andThen, mean_push]
    simp only [Naive.outcomes, mean_sure]
  have hp : Pos (andThen (push (fun vs => some (Val.num (g vs))) cs) Naive.outcomes) := by
    refine (hcs.push _).andThen fun x hx => ?_
    obtain ⟨y, _, rfl⟩ := List.mem_map.1 hx
    exact pos_sure _
  have ht : mean (andThen (push (fun vs => some (Val.num (g vs))) cs) Naive.outcomes) (fun _ => 1) = 1 := by rw [hm, h1]
  have hne : andThen (push (fun vs => some (Val.num (g vs))) cs) Naive.outcomes ≠ [] := by
    intro e
    rw [e] at ht
    simp at ht
  refine ⟨andThen (push (fun vs => some (Val.num (g vs))) cs) Naive.outcomes, ?_, hp, hm⟩
  unfold Naive.mixed
  simp only [hne, if_false, ht, div_one]
  simp

theorem cast_two {l m : Law} (hl : Pos l) (hm : Pos m) (tl : mean l (fun _ => 1) = 1) (tm : mean m (fun _ => 1) = 1) (p q : Option (ℕ × Law))
    {F : List Val → Option (Option Val)} {g : ℤ → ℤ → ℤ} (hF : ∀ x y, F [.num x, .num y] = some (some (.num (g x y)))) :
    ∃ r, Naive.cast F [(some .N, .die l p), (some .N, .die m q)] = some (Naive.one r) ∧ Pos r ∧
      ∀ f, mean r f = mean l fun x => mean m fun y => f (g x y) := by
  let cs := andThen (push Val.num l) fun v => push (v :: ·) (andThen (push Val.num m) fun v => push (v :: ·) (sure []))
  have hcs : Pos cs := (hl.push _).andThen fun _ _ => ((hm.push _).andThen fun _ _ => (pos_sure _).push _).push _
  let G : List Val → ℤ := fun
    | [.num x, .num y] => g x y
    | _ => 0
  have hmean : ∀ f : List Val → ℚ, mean cs f = mean l fun x => mean m fun y => f [.num x, .num y] := by
    intro f
    simp only [cs, mean_andThen, mean_push, mean_sure]
  obtain ⟨r, h1, h2, h3⟩ := mixed_sure hcs (g := G) (by rw [hmean]; simp only [tm, tl])
  refine ⟨r, ?_, h2, fun f => by rw [h3, hmean]⟩
  have hall : Naive.callAll F cs = some (push (fun vs => some (Val.num (G vs))) cs) := by
    refine callAll_total fun c hc => ?_
    obtain ⟨x, hx, z, hz, rfl⟩ := mem_andThen.1 hc
    obtain ⟨x, _, rfl⟩ := List.mem_map.1 hx
    obtain ⟨z, hz', rfl⟩ := List.mem_map.1 hz
    obtain ⟨y, hy, u, hu, rfl⟩ := mem_andThen.1 hz'
    obtain ⟨y, _, rfl⟩ := List.mem_map.1 hy
    obtain ⟨u, hu', rfl⟩ := List.mem_map.1 hu
    rw [sure, List.mem_singleton] at hu'
    subst hu'
    exact hF _ _
  change (if false = true then _ else if true = true then _ else _) = _
  rw [if_neg (by simp), if_pos rfl]
  change (Naive.callAll F cs).bind (fun rs => some (Naive.mixed rs)) = _
  rw [hall, Option.bind_some, h1]

theorem cast_one {l : Law} (hl : Pos l) (tl : mean l (fun _ => 1) = 1) (p : Option (ℕ × Law))
    {F : List Val → Option (Option Val)} {g : ℤ → ℤ} (hF : ∀ x, F [.num x] = some (some (.num (g x)))) :
    ∃ r, Naive.cast F [(some .N, .die l p)] = some (Naive.one r) ∧ Pos r ∧ ∀ f, mean r f = mean l fun x => f (g x) := by
  let cs := andThen (push Val.num l) fun v => push (v :: ·) (sure [])
  have hcs : Pos cs := (hl.push _).andThen fun _ _ => (pos_sure _).push _
  let G : List Val → ℤ := fun
    | [.num x] => g x
    | _ => 0
  have hmean : ∀ f : List Val → ℚ, mean cs f = mean l fun x => f [.num x] := by
    intro f
    simp only [cs, mean_andThen, mean_push, mean_sure]
  obtain ⟨r, h1, h2, h3⟩ := mixed_sure hcs (g := G) (by rw [hmean]; exact tl)
  refine ⟨r, ?_, h2, fun f => by rw [h3, hmean]⟩
  have hall : Naive.callAll F cs = some (push (fun vs => some (Val.num (G vs))) cs) := by
    refine callAll_total fun c hc => ?_
    obtain ⟨x, hx, z, hz, rfl⟩ := mem_andThen.1 hc
    obtain ⟨x, _, rfl⟩ := List.mem_map.1 hx
    obtain ⟨u, hu', rfl⟩ := List.mem_map.1 hz
    rw [sure, List.mem_singleton] at hu'
    subst hu'
    exact hF _
  change (if false = true then _ else if true = true then _ else _) = _
  rw [if_neg (by simp), if_pos rfl]
  change (Naive.callAll F cs).bind (fun rs => some (Naive.mixed rs)) = _
  rw [hall, Option.bind_some, h1]

theorem Rep.law {o : Obj} {l : Law} {p : Option (ℕ × Law)} (h : Rep o (.die l p)) : Pos l ∧ mean l (fun _ => 1) = 1 := by
  obtain ⟨_, _, h, _⟩ := h.die_inv
  exact ⟨h.pos, h.total⟩

theorem full_highestOf {a b : Obj} {l m : Law} {p q : Option (ℕ × Law)} (ha : Rep a (.die l p)) (hb : Rep b (.die m q)) :
    Full I (highestOf a b) fun y => Rep y (.die (andThen l fun x => push (fun y => max x y) m) none) := by
  obtain ⟨r, h1, _, h3⟩ := cast_two (g := fun x y => max x y) ha.law.1 hb.law.1 ha.law.2 hb.law.2 p q
    (F := fun | [a, b] => (Naive.maxVal a b).map some | _ => none) fun x y => rfl
  refine Full.mono (highestOf_rep (e := ⟨0, false⟩) [a, b] [.die l p, .die m q] (Naive.one r) (.cons ha (.cons hb .nil)) h1) fun y hy => ?_
  exact hy.to (ha.law.1.andThen fun _ _ => hb.law.1.push _) fun f => by simp only [h3, mean_andThen, mean_push]

theorem full_lowestOf {a b : Obj} {l m : Law} {p q : Option (ℕ × Law)} (ha : Rep a (.die l p)) (hb : Rep b (.die m q)) :
    Full I (lowestOf a b) fun y => Rep y (.die (andThen l fun x => push (fun y => min x y) m) none) := by
  obtain ⟨r, h1, _, h3⟩ := cast_two (g := fun x y => min x y) ha.law.1 hb.law.1 ha.law.2 hb.law.2 p q
    (F := fun | [a, b] => (Naive.minVal a b).map some | _ => none) fun x y => rfl
  refine Full.mono (lowestOf_rep (e := ⟨0, false⟩) [a, b] [.die l p, .die m q] (Naive.one r) (.cons ha (.cons hb .nil)) h1) fun y hy => ?_
  exact hy.to (ha.law.1.andThen fun _ _ => hb.law.1.push _) fun f => by simp only [h3, mean_andThen, mean_push]

theorem full_absolute {a : Obj} {l : Law} {p : Option (ℕ × Law)} (ha : Rep a (.die l p)) :
    Full I (absolute a) fun y => Rep y (.die (push (fun x => |x|) l) none) := by
  obtain ⟨r, h1, _, h3⟩ := cast_one (g := fun x => |x|) ha.law.1 ha.law.2 p
    (F := fun | [a] => (Naive.absVal a).map some | _ => none) fun x => rfl
  refine Full.mono (absolute_rep (e := ⟨0, false⟩) [a] [.die l p] (Naive.one r) (.cons ha .nil) h1) fun y hy => ?_
  exact hy.to (ha.law.1.push _) fun f => by simp only [h3, mean_push]

/-! ## Pools -/

theorem full_pool {n : ℕ} (hn : 2 ≤ n) {o : Obj} {l : Law} {p : Option (ℕ × Law)} (h : Rep o (.die l p)) :
    Full I (roll (.num n) o) fun y => Rep y (.die (rolls n l) (some (n, l))) := by
  refine Full.mono (full_roll (n := .num n) (u := .num n) rfl h) fun y hy => ?_
  have hv : Naive.rollVal (.num n) (.die l p) = Naive.rollNum n (.die l p) l := rfl
  rw [hv, Naive.rollNum, if_neg (by omega), if_pos (by omega)] at hy
  exact hy

theorem mean_draws_push (g : ℤ → ℤ) (b c : Law) (hc : ∀ f, mean c f = mean b fun x => f (g x)) (n : ℕ) (f : List ℤ → ℚ) :
    mean (draws c n) f = mean (draws b n) fun xs => f (xs.map g) := by
  induction n generalizing f with
  | zero => simp [mean_draws_zero]
  | succ n ih =>
    rw [mean_draws_succ, hc, mean_draws_succ]
    congr 1
    funext x
    rw [ih]
    rfl

theorem descending_neg (xs : List ℤ) : descending (xs.map fun x => -x) = (ascending xs).map fun x => -x := by
  symm
  refine Spec.eq_descending ((Spec.ascending_perm xs).map _) ?_
  rw [List.pairwise_map]
  exact (Spec.ascending_sorted xs).imp fun h => by omega

theorem elemAt_mirror (xs : List ℤ) {k n : ℕ} (hl : xs.length = n) (h1 : 1 ≤ k) (hk : k ≤ n) :
    Naive.elemAt (descending xs) k = Naive.elemAt (ascending xs) (n + 1 - k : ℕ) := by
  have hlen : (ascending xs).length = n := by rw [(Spec.ascending_perm xs).length_eq, hl]
  rw [Spec.descending_eq_reverse, Naive.elemAt, Naive.elemAt, if_pos (by omega), if_pos (by omega)]
  have e1 : ((k : ℤ) - 1).toNat = k - 1 := by omega
  have e2 : (((n + 1 - k : ℕ) : ℤ) - 1).toNat = n - k := by omega
  rw [e1, e2, List.getD_eq_getElem?_getD, List.getD_eq_getElem?_getD, List.getElem?_reverse (by omega), hlen]
  congr 2
  omega

/-- Places that exist, where the highest die is the first. -/
theorem pick_high {is : List ℤ} {n : ℕ} (hi : ∀ i ∈ is, 1 ≤ i ∧ i ≤ n) (l b : Law) :
    ∃ q, Naive.pick false is (.die l (some (n, b))) = some (Naive.one q) ∧
      ∀ f, mean q f = mean (draws b n) fun xs => f (Naive.sumAt (descending xs) is) := by
  match is, hi with
  | [], _ => exact ⟨_, rfl, fun f => mean_push _ _ _⟩
  | [i], hi =>
    refine ⟨_, if_pos (hi i (by simp)), fun f => ?_⟩
    rw [mean_push]
    simp [Naive.sumAt]
  | i :: j :: is, _ => exact ⟨_, rfl, fun f => mean_push _ _ _⟩

theorem mem_interval {a b i : ℤ} : i ∈ Naive.interval a b ↔ a ≤ i ∧ i ≤ b := by
  rw [Naive.interval, List.mem_map]
  constructor
  · rintro ⟨j, hj, rfl⟩
    rw [List.mem_range] at hj
    omega
  · intro h
    exact ⟨(i - a).toNat, by rw [List.mem_range]; omega, by omega⟩

theorem list_sum_range (k : ℕ) (f : ℕ → ℤ) : ((List.range k).map f).sum = ∑ i ∈ Finset.range k, f i := by
  induction k with
  | zero => rfl
  | succ k ih => rw [List.range_succ, List.map_append, List.sum_append, ih, Finset.sum_range_succ]; simp

theorem sumAt_interval (s : List ℤ) (a : ℤ) (k : ℕ) :
    Naive.sumAt s (Naive.interval a (a + k - 1)) = ∑ i ∈ Finset.range k, Naive.elemAt s (a + i) := by
  rw [Naive.sumAt, Naive.interval, List.map_map, show (a + k - 1 + 1 - a).toNat = k by omega, list_sum_range]
  rfl

theorem sumAt_first (s : List ℤ) (k : ℕ) : Naive.sumAt s (Naive.interval 1 k) = (s.take k).sum := by
  have := sumAt_interval s 1 k
  rw [show (1 : ℤ) + k - 1 = k by ring] at this
  rw [this]
  induction k with
  | zero => rfl
  | succ k ih =>
    rw [Finset.sum_range_succ, ih (by rw [← sumAt_interval]; congr 2; ring)]
    rw [Naive.elemAt, if_pos (by omega), show ((1 : ℤ) + k - 1).toNat = k by omega, List.take_add_one, List.sum_append, List.getD_eq_getElem?_getD]
    congr 1
    cases s[k]? <;> simp

theorem sumAt_all (xs : List ℤ) {n : ℕ} (h : xs.length = n) : Naive.sumAt (descending xs) (Naive.interval 1 n) = xs.sum := by
  rw [sumAt_first, List.take_of_length_le (by rw [(Spec.descending_perm xs).length_eq, h])]
  exact (Spec.descending_perm xs).sum_eq

theorem elemAt_neg (s : List ℤ) (i : ℤ) : Naive.elemAt (s.map fun x => -x) i = -Naive.elemAt s i := by
  unfold Naive.elemAt
  split_ifs
  · rw [List.getD_eq_getElem?_getD, List.getD_eq_getElem?_getD, List.getElem?_map]
    cases s[(i - 1).toNat]? <;> simp
  · simp

/-- The lowest of the negated numbers are the highest. -/
theorem sumAt_mirror (xs : List ℤ) {k n : ℕ} (hl : xs.length = n) (hk : k ≤ n) :
    Naive.sumAt (descending (xs.map fun x => -x)) (Naive.interval (n - k + 1) n) = -Naive.sumAt (descending xs) (Naive.interval 1 k) := by
  have e1 := sumAt_interval (descending (xs.map fun x => -x)) (n - k + 1) k
  rw [show ((n : ℤ) - k + 1 + k - 1) = n by ring] at e1
  have e2 := sumAt_interval (descending xs) 1 k
  rw [show ((1 : ℤ) + k - 1) = k by ring] at e2
  rw [e1, e2, ← Finset.sum_range_reflect, ← Finset.sum_neg_distrib]
  refine Finset.sum_congr rfl fun i hi => ?_
  rw [Finset.mem_range] at hi
  rw [descending_neg, elemAt_neg]
  congr 1
  have := elemAt_mirror xs (k := i + 1) hl (by omega) (by omega)
  rw [show ((1 : ℤ) + i) = ((i + 1 : ℕ) : ℤ) by push_cast; ring, this]
  congr 1
  omega

theorem cast_sel (F : List Val → Option (Option Val)) (k : ℤ) (l : Law) (p : Option (ℕ × Law)) :
    Naive.cast F [(some .N, .num k), (some .D, .die l p)] = (F [.num k, .die l p]).bind fun r => some (r.getD (.blank false)) := by
  unfold Naive.cast
  rw [if_neg (by simp [Naive.nothing]), if_neg (by simp [Naive.random])]
  rfl

theorem full_highestN {n k : ℕ} (hk : k ≤ n) (hI : ∀ st, I st → st.positionOrder = order false) {o : Obj} {l b : Law}
    (h : Rep o (.die l (some (n, b)))) (hb : Pos b) :
    Full I (highestN (.num k) o) fun y => Rep y (.die (push (fun xs => Naive.sumAt (descending xs) (Naive.interval 1 k)) (draws b n)) none) := by
  obtain ⟨q, h1, h2⟩ := pick_high (is := Naive.interval 1 k) (n := n) (fun i hi => by rw [mem_interval] at hi; omega) l b
  refine Full.mono (highestN_rep (e := ⟨0, false⟩) hI [.num k, o] [.num k, .die l (some (n, b))] (Naive.one q) (.cons rfl (.cons h .nil)) ?_)
    fun y hy => hy.to ((hb.draws _).push _) fun f => by rw [h2, mean_push]
  have e : Naive.highestVal false (.num k) (.die l (some (n, b))) = some (Naive.one q) := h1
  refine (cast_sel _ _ _ _).trans ?_
  simp only [e]
  rfl

theorem full_lowestN {n k : ℕ} (hk : k ≤ n) (hI : ∀ st, I st → st.positionOrder = order false) {o : Obj} {l b : Law}
    (h : Rep o (.die l (some (n, b)))) (hb : Pos b) :
    Full I (lowestN (.num k) o) fun y => Rep y (.die (push (fun xs => Naive.sumAt (descending xs) (Naive.interval (n - k + 1) n)) (draws b n)) none) := by
  obtain ⟨q, h1, h2⟩ := pick_high (is := Naive.interval (n - k + 1) n) (n := n) (fun i hi => by rw [mem_interval] at hi; omega) l b
  refine Full.mono (lowestN_rep (e := ⟨0, false⟩) hI [.num k, o] [.num k, .die l (some (n, b))] (Naive.one q) (.cons rfl (.cons h .nil)) ?_)
    fun y hy => hy.to ((hb.draws _).push _) fun f => by rw [h2, mean_push]
  have e : Naive.lowestVal false (.num k) (.die l (some (n, b))) = some (Naive.one q) := h1
  refine (cast_sel _ _ _ _).trans ?_
  simp only [e]
  rfl

end Enum
end PythonDice
