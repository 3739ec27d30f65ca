import Verif.Proofs.Parsing

/-!
# The fuel of the reader of Python does not matter (C35)
-/

namespace PythonDice

open Spec Compiler
open Spec.Py (Tok FPiece lex readF opHead binOps unaryOps parse chain loop power atom trailers args)

/-- What the first computes, the second does. -/
def Below {α : Type} (f g : Option α) : Prop := ∀ r, f = some r → g = some r

theorem Below.refl {α : Type} (f : Option α) : Below f f := fun _ h => h

theorem Below.none {α : Type} (g : Option α) : Below none g := fun _ h => by cases h

theorem Below.map {α β : Type} {f g : Option α} (h : Below f g) (k : α → β) : Below (f.map k) (g.map k) := by
  intro r hr
  obtain ⟨a, ha, rfl⟩ := Option.map_eq_some_iff.1 hr
  rw [h a ha]
  rfl

theorem Below.bind {α β : Type} {f g : Option α} {k l : α → Option β} (h : Below f g) (hk : ∀ a, Below (k a) (l a)) :
    Below (f.bind k) (g.bind l) := by
  intro r hr
  obtain ⟨a, ha, hr⟩ := Option.bind_eq_some_iff.1 hr
  rw [h a ha]
  exact hk a r hr

theorem Below.ite {α : Type} {f g f' g' : Option α} {p : Prop} [Decidable p] (h : Below f g) (h' : Below f' g') :
    Below (if p then f else f') (if p then g else g') := by
  by_cases hp : p
  · rw [if_pos hp, if_pos hp]
    exact h
  · rw [if_neg hp, if_neg hp]
    exact h'

theorem readF_succ (n : ℕ) : ∀ s, Below (readF n s) (readF (n + 1) s) := by
  induction n with
  | zero => exact fun s => .none _
  | succ n ih =>
    intro s
    cases s with
    | nil => exact .none _
    | cons c cs =>
      rw [readF, readF]
      refine .ite (.refl _) (.ite (.refl _) (.ite (.ite ((ih _).map _) (.ite ((ih _).map _) (.refl _)))
        (.ite (.ite ((ih _).map _) (.refl _)) (.ite ?_ ((ih _).map _)))))
      rcases cs.head?.bind Py.escape with _ | _ | d
      · exact (ih _).map _
      · exact .refl _
      · exact (ih _).map _

theorem lex_succ (n : ℕ) : ∀ s, Below (lex n s) (lex (n + 1) s) := by
  induction n with
  | zero => exact fun s => .none _
  | succ n ih =>
    intro s
    cases s with
    | nil => exact .refl _
    | cons c cs =>
      rw [lex, lex]
      exact .ite (ih _) (.ite (.ite ((readF_succ n _).bind fun _ => (ih _).map _) (.ite (.refl _) ((ih _).map _)))
        (.ite (.ite (.ite (.refl _) ((ih _).map _)) (.ite ((ih _).map _) (.refl _)))
          (.ite (.ite ((ih _).map _) (.refl _)) (.ite ((ih _).map _) (.ite ((ih _).map _) (.refl _))))))

/-- More fuel changes nothing, for all the functions of the parser. -/
structure Steady (n : ℕ) : Prop where
  parse : ∀ k ts, Below (parse n k ts) (parse (n + 1) k ts)
  chain : ∀ b a ts, Below (chain n b a ts) (chain (n + 1) b a ts)
  loop : ∀ k a ts, Below (loop n k a ts) (loop (n + 1) k a ts)
  power : ∀ a ts, Below (power n a ts) (power (n + 1) a ts)
  atom : ∀ ts, Below (atom n ts) (atom (n + 1) ts)
  trailers : ∀ a ts, Below (trailers n a ts) (trailers (n + 1) a ts)
  args : ∀ c ts, Below (args n c ts) (args (n + 1) c ts)

theorem steady_zero : Steady 0 :=
  ⟨fun _ _ => .none _, fun _ _ _ => .none _, fun _ _ _ => .none _, fun _ _ => .none _, fun _ => .none _, fun _ _ => .none _,
    fun _ _ => .none _⟩

theorem steady_succ {n : ℕ} (ih : Steady n) : Steady (n + 1) where
  parse k ts := by
    rw [Py.parse, Py.parse]
    refine .ite ((ih.parse _ _).bind fun _ => ih.chain _ _ _) (.ite ((ih.parse _ _).bind fun _ => ih.loop _ _ _) (.ite ?_
      (.ite ((ih.parse _ _).bind fun _ => ih.power _ _) ((ih.atom _).bind fun _ => ih.trailers _ _))))
    cases opHead ts with
    | none => exact ih.parse _ _
    | some o => exact .ite ((ih.parse _ _).map _) (ih.parse _ _)
  chain b a ts := by
    rw [Py.chain, Py.chain]
    cases opHead ts with
    | none => exact .refl _
    | some o => exact .ite ((ih.parse _ _).bind fun _ => ih.chain _ _ _) (.refl _)
  loop k a ts := by
    rw [Py.loop, Py.loop]
    cases opHead ts with
    | none => exact .refl _
    | some o => exact .ite ((ih.parse _ _).bind fun _ => ih.loop _ _ _) (.refl _)
  power a ts := by
    rw [Py.power, Py.power]
    cases opHead ts with
    | none => exact .refl _
    | some o => exact .ite ((ih.parse _ _).map _) (.refl _)
  atom ts := by
    cases ts with
    | nil => exact .refl _
    | cons t ts =>
      cases t with
      | op o =>
        rw [Py.atom, Py.atom]
        exact .ite ((ih.parse _ _).bind fun _ => .refl _) (.ite ((ih.args _ _).map _) (.refl _))
      | _ => exact .refl _
  trailers a ts := by
    rw [Py.trailers, Py.trailers]
    cases opHead ts with
    | none => exact .refl _
    | some o =>
      exact .ite ((ih.args _ _).bind fun _ => ih.trailers _ _)
        (.ite ((ih.parse _ _).bind fun _ => .ite (ih.trailers _ _) (.refl _)) (.refl _))
  args c ts := by
    rw [Py.args, Py.args]
    exact .ite (.refl _) ((ih.parse _ _).bind fun _ => .ite ((ih.args _ _).map _) (.refl _))

theorem steady (n : ℕ) : Steady n := by
  induction n with
  | zero => exact steady_zero
  | succ n ih => exact steady_succ ih

theorem parse_le {n m k : ℕ} (h : n ≤ m) (ts : List Tok) : Below (parse n k ts) (parse m k ts) := by
  induction h with
  | refl => exact .refl _
  | step _ ih => exact fun r hr => (steady _).parse _ _ r (ih r hr)

theorem lex_le {n m : ℕ} (h : n ≤ m) (s : List Char) : Below (lex n s) (lex m s) := by
  induction h with
  | refl => exact .refl _
  | step _ ih => exact fun r hr => lex_succ _ _ r (ih r hr)

/-- A text that is read in one way with some fuel is read in that way only. -/
theorem readsAs_of {n : ℕ} {s : List Char} {e : Py.Expr} (h : (lex n s).bind (parse n 0) = some (e, [])) (f : Py.Expr) :
    Py.ReadsAs s f ↔ f = e := by
  obtain ⟨ts, h1, h2⟩ := Option.bind_eq_some_iff.1 h
  constructor
  · rintro ⟨N, hN⟩
    obtain ⟨us, h3, h4⟩ := hN (max n N) (le_max_right _ _)
    rw [lex_le (le_max_left n N) s _ h1] at h3
    cases h3
    rw [parse_le (le_max_left n N) ts _ h2] at h4
    cases h4
    rfl
  · rintro rfl
    exact ⟨n, fun m hm => ⟨ts, lex_le hm s _ h1, parse_le hm ts _ h2⟩⟩

/-- A text has at most one reading. -/
theorem readsAs_unique {s : List Char} {e f : Py.Expr} (he : Py.ReadsAs s e) (hf : Py.ReadsAs s f) : e = f := by
  obtain ⟨N, hN⟩ := hf
  obtain ⟨ts, h1, h2⟩ := hN N (le_refl N)
  exact (readsAs_of (by rw [h1]; exact h2) e).1 he

end PythonDice
