import Verif.Proofs.Exact
import Mathlib.Algebra.Order.Field.Rat

/-! Whether a program can be computed without rounding can be decided. -/

namespace PythonDice
open Spec
open Spec.Naive
open Compiler (Expr Elems CallParts Stmt Block Else DefPart StrPart)

namespace Enum

/-- The least common denominator. -/
def common (l : Law) : ℕ := ((support l).map fun v => (prob l v).den).foldr Nat.lcm 1

theorem dvd_lcms (l : List ℕ) : ∀ x ∈ l, x ∣ l.foldr Nat.lcm 1 := by
  induction l with
  | nil => exact fun x h => by cases h
  | cons y l ih =>
    intro x hx
    rcases List.mem_cons.1 hx with rfl | hx
    · exact Nat.dvd_lcm_left _ _
    · exact (ih x hx).trans (Nat.dvd_lcm_right _ _)

theorem lcms_dvd {l : List ℕ} {n : ℕ} (h : ∀ x ∈ l, x ∣ n) : l.foldr Nat.lcm 1 ∣ n := by
  induction l with
  | nil => exact one_dvd _
  | cons y l ih => exact Nat.lcm_dvd (h y List.mem_cons_self) (ih fun x hx => h x (List.mem_cons_of_mem _ hx))

theorem prob_zero {l : Law} {v : ℤ} (h : v ∉ support l) : prob l v = 0 := by
  have : v ∉ l.map fun x => x.1 := fun hv => h (by
    unfold support ascending
    rw [List.mem_insertionSort]
    exact List.mem_dedup.2 hv)
  unfold prob
  rw [List.filter_eq_nil_iff.2]
  · rfl
  · intro x hx e
    exact this (List.mem_map.2 ⟨x, hx, by simpa using e⟩)

theorem over_iff (n : ℕ) (l : Law) : Over n l ↔ 0 < n ∧ (∀ v ∈ support l, 0 ≤ prob l v) ∧ common l ∣ n := by
  constructor
  · rintro ⟨h0, h⟩
    have hn : (n : ℚ) ≠ 0 := by exact_mod_cast h0.ne'
    refine ⟨h0, fun v _ => ?_, lcms_dvd fun x hx => ?_⟩
    · obtain ⟨k, hk⟩ := h v
      rw [hk]
      positivity
    · obtain ⟨v, _, rfl⟩ := List.mem_map.1 hx
      obtain ⟨k, hk⟩ := h v
      have := Rat.den_dvd (k : ℤ) (n : ℤ)
      rw [Rat.divInt_eq_div] at this
      push_cast at this
      rw [← hk] at this
      exact_mod_cast this
  · rintro ⟨h0, h1, h2⟩
    refine ⟨h0, fun v => ?_⟩
    by_cases hv : v ∈ support l
    · have hd : (prob l v).den ∣ n := (dvd_lcms _ _ (List.mem_map_of_mem hv)).trans h2
      obtain ⟨k, rfl⟩ := hd
      have hnum : (0 : ℤ) ≤ (prob l v).num := Rat.num_nonneg.2 (h1 v hv)
      refine ⟨(prob l v).num.toNat * k, ?_⟩
      have hk : (k : ℚ) ≠ 0 := by
        rintro e
        have : k = 0 := by exact_mod_cast e
        subst this
        simp at h0
      have hden : ((prob l v).den : ℚ) ≠ 0 := by exact_mod_cast (prob l v).den_nz
      have e : (((prob l v).num.toNat : ℕ) : ℚ) = ((prob l v).num : ℚ) := by exact_mod_cast Int.toNat_of_nonneg hnum
      push_cast
      rw [mul_div_mul_right _ _ hk, e]
      exact (Rat.num_div_den _).symm
    · exact ⟨0, by rw [prob_zero hv]; simp⟩

theorem common_pos (l : Law) : 0 < common l := by
  unfold common
  generalize hL : ((support l).map fun v => (prob l v).den) = L
  have : ∀ x ∈ L, 0 < x := by
    intro x hx
    rw [← hL] at hx
    obtain ⟨v, _, rfl⟩ := List.mem_map.1 hx
    exact (prob l v).den_pos
  clear hL
  induction L with
  | nil => exact Nat.one_pos
  | cons y L ih => exact Nat.lcm_pos (this y List.mem_cons_self) (ih fun x hx => this x (List.mem_cons_of_mem _ hx))

theorem exact_iff (l : Law) : Exact l ↔ (∀ v ∈ support l, 0 ≤ prob l v) ∧ common l ≤ most := by
  constructor
  · rintro ⟨n, h1, h2⟩
    obtain ⟨h0, h3, h4⟩ := (over_iff n l).1 h2
    exact ⟨h3, (Nat.le_of_dvd h0 h4).trans h1⟩
  · rintro ⟨h1, h2⟩
    exact ⟨common l, h2, (over_iff _ l).2 ⟨common_pos l, h1, dvd_refl _⟩⟩

theorem exactRolls_iff (k : ℤ) (l : Law) :
    ExactRolls k l ↔ (1 < k.natAbs → (∀ v ∈ support l, 0 ≤ prob l v) ∧ common l ^ k.natAbs ≤ most) := by
  unfold ExactRolls
  refine imp_congr_right fun _ => ⟨?_, ?_⟩
  · rintro ⟨n, h1, h2⟩
    obtain ⟨h0, h3, h4⟩ := (over_iff n l).1 h1
    exact ⟨h3, (Nat.pow_le_pow_left (Nat.le_of_dvd h0 h4) _).trans h2⟩
  · rintro ⟨h1, h2⟩
    exact ⟨common l, (over_iff _ l).2 ⟨common_pos l, h1, dvd_refl _⟩, h2⟩

instance (l : Law) : Decidable (Exact l) := decidable_of_iff _ (exact_iff l).symm

instance (k : ℤ) (l : Law) : Decidable (ExactRolls k l) := decidable_of_iff _ (exactRolls_iff k l).symm

instance (v : Val) : Decidable (ExactVal v) :=
  match v with
  | .num _ => isTrue trivial
  | .seq _ => isTrue trivial
  | .blank _ => isTrue trivial
  | .die l _ => inferInstanceAs (Decidable (Exact l))

/-- What is required of the value, if there is one. -/
def decSome {α : Type} {P : α → Prop} (o : Option α) (d : ∀ x, Decidable (P x)) : Decidable (∀ x, o = some x → P x) :=
  match o with
  | none => isTrue fun _ h => by cases h
  | some x => decidable_of_iff (P x) ⟨fun h y e => by cases e; exact h, fun h => h x rfl⟩

instance {α : Type} {P : α → Prop} (o : Option α) [d : DecidablePred P] : Decidable (∀ x, o = some x → P x) := decSome o d

instance (n d : Val) : Decidable (ExactRoll n d) := by
  have h : Decidable (∀ l p, n = .die l p → ExactVal (rollVal n d)) :=
    match n with
    | .num _ => isTrue fun _ _ h => by cases h
    | .seq _ => isTrue fun _ _ h => by cases h
    | .blank _ => isTrue fun _ _ h => by cases h
    | .die l p => decidable_of_iff (ExactVal (rollVal (.die l p) d)) ⟨fun h _ _ _ => h, fun h => h l p rfl⟩
  exact decSome _ fun b => instDecidableAnd

instance (f : Table → List Val → Option Val) (t : Table) (args : List Val) : Decidable (ExactLib f t args) := by
  have h : Decidable (∀ a as, args = a :: as → ∀ n ∈ amounts a, ∀ v, f t (.num n :: as) = some v → ExactVal v) :=
    match args with
    | [] => isTrue fun _ _ h => by cases h
    | a :: as => decidable_of_iff (∀ n ∈ amounts a, ∀ v, f t (.num n :: as) = some v → ExactVal v)
        ⟨fun h _ _ e => by cases e; exact h, fun h => h a as rfl⟩
  have h' : Decidable (∀ e, e ≤ t.explode → ∀ v, f ⟨e, t.low⟩ args = some v → ExactVal v) := inferInstance
  exact instDecidableAnd

section
variable (R : Rules) (call : Call) (sub : ExactSub) (fns : Funs) (fr : Scope) [hs : ∀ fr fns d body args, Decidable (sub fr fns d body args)]

instance (t : Table) (f : Fun) (args : List Val) : Decidable (ExactCall t sub fns fr f args) :=
  match f with
  | .lib g => inferInstanceAs (Decidable (ExactLib g t args))
  | .user d body => hs fr fns d body args

mutual

def decE : (e : Expr) → Decidable (ExactE R call sub fns fr e)
  | .num _ => isTrue trivial
  | .dec _ _ => isTrue trivial
  | .var _ => isTrue trivial
  | .str _ => isTrue trivial
  | .group e => decE e
  | .bin op l r =>
    have := decE l
    have := decE r
    inferInstanceAs (Decidable (ExactE R call sub fns fr l ∧ ExactE R call sub fns fr r ∧
      ∀ v, value R call fns fr (.bin op l r) = some v → ExactVal v))
  | .ndm l r =>
    have := decE l
    have := decE r
    have : Decidable (∀ a, value R call fns fr l = some a → ∀ b, value R call fns fr r = some b → ExactRoll a b) := inferInstance
    decidable_of_iff (ExactE R call sub fns fr l ∧ ExactE R call sub fns fr r ∧
      ∀ a, value R call fns fr l = some a → ∀ b, value R call fns fr r = some b → ExactRoll a b)
      ⟨fun h => ⟨h.1, h.2.1, fun a b ha hb => h.2.2 a ha b hb⟩, fun h => ⟨h.1, h.2.1, fun a ha b hb => h.2.2 a b ha hb⟩⟩
  | .dm r => decE r
  | .unary _ e => decE e
  | .hash e => decE e
  | .seq es => decElems es
  | .call cs =>
    have := decArgs cs
    have : Decidable (∀ f, fns.lookup (callSig cs) = some f → ∀ args, arguments R call fns fr cs = some args →
      ExactCall call.table sub fns fr f args) := inferInstance
    decidable_of_iff (ExactArgs R call sub fns fr cs ∧ ∀ f, fns.lookup (callSig cs) = some f → ∀ args, arguments R call fns fr cs = some args →
      ExactCall call.table sub fns fr f args)
      ⟨fun h => ⟨h.1, fun a b ha hb => h.2 a ha b hb⟩, fun h => ⟨h.1, fun a ha b hb => h.2 a b ha hb⟩⟩

def decElems : (es : Elems) → Decidable (ExactElems R call sub fns fr es)
  | .nil => isTrue trivial
  | .expr e es =>
    have := decE e
    have := decElems es
    inferInstanceAs (Decidable (ExactE R call sub fns fr e ∧ ExactElems R call sub fns fr es))
  | .range l r es =>
    have := decE l
    have := decE r
    have := decElems es
    inferInstanceAs (Decidable (ExactE R call sub fns fr l ∧ ExactE R call sub fns fr r ∧ ExactElems R call sub fns fr es))

def decArgs : (cs : CallParts) → Decidable (ExactArgs R call sub fns fr cs)
  | .nil => isTrue trivial
  | .word _ cs => decArgs cs
  | .arg e cs =>
    have := decE e
    have := decArgs cs
    inferInstanceAs (Decidable (ExactE R call sub fns fr e ∧ ExactArgs R call sub fns fr cs))

end

end

instance (R : Rules) (call : Call) (sub : ExactSub) (fns : Funs) (fr : Scope) [∀ fr fns d body args, Decidable (sub fr fns d body args)] (e : Expr) :
    Decidable (ExactE R call sub fns fr e) := decE R call sub fns fr e

/-- Going on if there was no result. -/
def decNext {P : Point → Prop} (o : Option (Point × Option Val)) (d : ∀ s, Decidable (P s)) : Decidable (∀ s, o = some (s, none) → P s) :=
  match o with
  | none => isTrue fun _ h => by cases h
  | some (_, some _) => isTrue fun _ h => by cases h
  | some (s, none) => decidable_of_iff (P s) ⟨fun h y e => by cases e; exact h, fun h => h s rfl⟩

def decLoop (f : Point → ℤ → Option (Point × Option Val)) (P : Point → ℤ → Prop) (d : ∀ s n, Decidable (P s n)) :
    (ns : List ℤ) → (s : Point) → Decidable (ExactLoop f P ns s)
  | [], _ => isTrue trivial
  | n :: ns, s =>
    have := d s n
    have : Decidable (∀ s', f s n = some (s', none) → ExactLoop f P ns s') := decNext _ fun s' => decLoop f P d ns s'
    inferInstanceAs (Decidable (P s n ∧ ∀ s', f s n = some (s', none) → ExactLoop f P ns s'))

def decIf {v : Option Val} {P Q : Prop} (dP : Decidable P) (dQ : Decidable Q) :
    Decidable (∀ x t, v = some x → truth x = some t → if t = true then P else Q) :=
  have : Decidable (∀ x, v = some x → ∀ t, truth x = some t → if t = true then P else Q) :=
    decSome _ fun x => decSome _ fun t => inferInstance
  decidable_of_iff (∀ x, v = some x → ∀ t, truth x = some t → if t = true then P else Q)
    ⟨fun h a b ha hb => h a ha b hb, fun h a ha b hb => h a b ha hb⟩

section
variable (R : Rules) (call : Config → Call) (sub : Config → ExactSub) [hs : ∀ c fr fns d body args, Decidable (sub c fr fns d body args)]

mutual

def decS : (st : Stmt) → (s : Point) → Decidable (ExactS R call sub st s)
  | .output e, s => decE R (call s.conf) (sub s.conf) s.fns s.fr e
  | .outputNamed e _, s => decE R (call s.conf) (sub s.conf) s.fns s.fr e
  | .set _ e, s => decE R (call s.conf) (sub s.conf) s.fns s.fr e
  | .function _ _, _ => isTrue trivial
  | .result e, s => decE R (call s.conf) (sub s.conf) s.fns s.fr e
  | .cond c body rest, s =>
    have := decE R (call s.conf) (sub s.conf) s.fns s.fr c
    have := decIf (v := value R (call s.conf) s.fns s.fr c) (decB body s) (decElse rest s)
    inferInstanceAs (Decidable (_ ∧ _))
  | .loop x e body, s =>
    have := decE R (call s.conf) (sub s.conf) s.fns s.fr e
    have : Decidable (∀ v, value R (call s.conf) s.fns s.fr e = some v → ∀ ns, numbers v = some ns →
        ExactLoop (fun s n => block R call body { s with fr := s.fr.set x (.num n) })
          (fun s n => ExactB R call sub body { s with fr := s.fr.set x (.num n) }) ns s) :=
      decSome _ fun v => decSome _ fun ns => decLoop _ _ (fun s n => decB body { s with fr := s.fr.set x (.num n) }) ns s
    decidable_of_iff (ExactE R (call s.conf) (sub s.conf) s.fns s.fr e ∧
        ∀ v, value R (call s.conf) s.fns s.fr e = some v → ∀ ns, numbers v = some ns →
        ExactLoop (fun s n => block R call body { s with fr := s.fr.set x (.num n) })
          (fun s n => ExactB R call sub body { s with fr := s.fr.set x (.num n) }) ns s)
      ⟨fun h => ⟨h.1, fun a b ha hb => h.2 a ha b hb⟩, fun h => ⟨h.1, fun a ha b hb => h.2 a b ha hb⟩⟩
  | .assign _ e, s => decE R (call s.conf) (sub s.conf) s.fns s.fr e

def decB : (b : Block) → (s : Point) → Decidable (ExactB R call sub b s)
  | .nil, _ => isTrue trivial
  | .cons st b, s =>
    have := decS st s
    have : Decidable (∀ s', statement R call st s = some (s', none) → ExactB R call sub b s') := decNext _ fun s' => decB b s'
    inferInstanceAs (Decidable (ExactS R call sub st s ∧ ∀ s', statement R call st s = some (s', none) → ExactB R call sub b s'))

def decElse : (b : Else) → (s : Point) → Decidable (ExactElse R call sub b s)
  | .done, _ => isTrue trivial
  | .else_ b, s => decB b s
  | .elif c body rest, s =>
    have := decE R (call s.conf) (sub s.conf) s.fns s.fr c
    have := decIf (v := value R (call s.conf) s.fns s.fr c) (decB body s) (decElse rest s)
    inferInstanceAs (Decidable (_ ∧ _))

end

end

def decUser (R : Rules) (c : Config) : (n : ℕ) → ∀ fr fns d body args, Decidable (ExactUser R c n fr fns d body args)
  | 0 => fun _ _ _ _ _ => isTrue trivial
  | n + 1 => fun fr fns d body args => by
    have hu := decUser R c n
    have hP : ∀ vs, Decidable (ExactB R (fun _ => callUser R c n) (fun _ => ExactUser R c n) body
      ⟨fns, begin' R fr d body vs, [], { c with left := n }⟩) := fun vs => decB (hs := fun _ => hu) R _ _ body _
    have h1 : Decidable (∀ cs, allChoices (((paramsOf d).map Prod.snd).zip args) = some cs → ∀ x ∈ cs,
        ExactB R (fun _ => callUser R c n) (fun _ => ExactUser R c n) body ⟨fns, begin' R fr d body x.1, [], { c with left := n }⟩) :=
      decSome _ fun cs => List.decidableBAll (fun x : List Val × ℚ => ExactB R (fun _ => callUser R c n) (fun _ => ExactUser R c n) body ⟨fns, begin' R fr d body x.1, [], { c with left := n }⟩) cs
    unfold ExactUser
    simp only
    infer_instance

instance (R : Rules) (c : Config) (p : Block) : Decidable (ExactProgram R c p) :=
  decB (hs := fun c => decUser R c c.left.toNat) R (callIn R) (fun c => ExactUser R c c.left.toNat) p _

end Enum
end PythonDice
