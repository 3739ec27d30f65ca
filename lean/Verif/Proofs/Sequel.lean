import Verif.Proofs.Tidy
import Verif.Proofs.RunCall
import Verif.Proofs.Ahead
import Verif.Spec.Sequel
import Verif.Spec.PyMeaning

/-!
# What a program needs of what was before it
-/

namespace PythonDice

open Spec Compiler

/-- Computations that do the same, with results that are related. -/
def Both {α : Type} (P : α → α → Prop) (m m' : M α) : Prop := ∀ w, (m' w).2 = (m w).2 ∧ (∀ e, (m w).1 = .error e → (m' w).1 = .error e) ∧
  ∀ a, (m w).1 = .ok a → ∃ a', (m' w).1 = .ok a' ∧ P a a'

namespace Both
variable {α β : Type}

theorem pure {P : α → α → Prop} {a a' : α} (h : P a a') : Both P (Pure.pure a) (Pure.pure a') :=
  fun _ => ⟨rfl, (fun _ h => by cases h), fun b hb => by cases hb; exact ⟨a', rfl, h⟩⟩

theorem bind {P : α → α → Prop} {Q : β → β → Prop} {m m' : M α} {f f' : α → M β} (hm : Both P m m') (hf : ∀ a a', P a a' → Both Q (f a) (f' a')) :
    Both Q (m >>= f) (m' >>= f') := by
  intro w
  obtain ⟨h1, h2, h3⟩ := hm w
  rw [M.bind_apply, M.bind_apply]
  rcases hr : m w with ⟨r, v⟩
  rcases hr' : m' w with ⟨r', v'⟩
  rw [hr, hr'] at h1 h2 h3
  dsimp only at h1 h2 h3
  subst h1
  cases r with
  | error e =>
    have := h2 e rfl
    subst this
    exact ⟨rfl, fun _ h => h, fun _ h => by cases h⟩
  | ok a =>
    obtain ⟨a', rfl, ha⟩ := h3 a rfl
    exact hf a a' ha _

theorem same {P : β → β → Prop} {m : M α} {f f' : α → M β} (hf : ∀ a, Both P (f a) (f' a)) : Both P (m >>= f) (m >>= f') :=
  bind (P := fun a b => a = b) (fun _ => ⟨rfl, fun _ h => h, fun a h => ⟨a, h, rfl⟩⟩) fun a _ h => by subst h; exact hf a

theorem mono {P Q : α → α → Prop} {m m' : M α} (h : Both P m m') (hPQ : ∀ a a', P a a' → Q a a') : Both Q m m' := by
  intro w
  obtain ⟨h1, h2, h3⟩ := h w
  exact ⟨h1, h2, fun a ha => (h3 a ha).imp fun a' h => ⟨h.1, hPQ _ _ h.2⟩⟩

end Both

/-- Names. -/
abbrev Names := List Char → Prop

/-- Variables in sight that agree in some names, the variables of the program in some others. -/
structure Near (R : Rules) (o : Option (List (List Char))) (W V : Names) (fr fr' : Frame) : Prop where
  copy : R.copy = true → o = none
  own : fr.own = o
  own' : fr'.own = o
  sub : ∀ x, W x → V x
  find : ∀ x, V x → fr'.find x = fr.find x
  prog : ∀ x, W x → fr'.program.lookup x = fr.program.lookup x

theorem Near.weaken {R : Rules} {o : Option (List (List Char))} {W V U : Names} {fr fr' : Frame} (h : Near R o W V fr fr') (h1 : ∀ x, W x → U x)
    (h2 : ∀ x, U x → V x) : Near R o W U fr fr' := ⟨h.copy, h.own, h.own', h1, fun x hx => h.find x (h2 x hx), h.prog⟩

theorem lookup_cons_eq {α β : Type} [BEq α] [LawfulBEq α] (x : α) (o : β) (l : List (α × β)) : ((x, o) :: l).lookup x = some o := by
  rw [List.lookup_cons, beq_self_eq_true]

theorem lookup_cons_ne {α β : Type} [BEq α] [LawfulBEq α] {x y : α} (h : y ≠ x) (o : β) (l : List (α × β)) : ((x, o) :: l).lookup y = l.lookup y := by
  rw [List.lookup_cons, beq_false_of_ne h]

theorem Near.set {R : Rules} {o : Option (List (List Char))} {W V : Names} {fr fr' : Frame} (h : Near R o W V fr fr') {x : List Char}
    (hx : ∀ names, o = some names → x ∈ names) (v : Obj) : Near R o W (fun y => V y ∨ y = x) (fr.set x v) (fr'.set x v) := by
  refine ⟨h.copy, h.own, h.own', fun y hy => .inl (h.sub y hy), fun y hy => ?_, fun y hy => ?_⟩
  · have hf := h.find y
    unfold Frame.find Frame.set at *
    rw [h.own, h.own'] at *
    dsimp only
    rcases Classical.em (y = x) with rfl | hne
    · cases o with
      | none => simp only [lookup_cons_eq]
      | some names => simp only [if_pos (hx names rfl), lookup_cons_eq]
    · have hv := hf (hy.resolve_right hne)
      cases o with
      | none => simpa only [lookup_cons_ne hne] using hv
      | some names => simpa only [lookup_cons_ne hne] using hv
  · have hf := h.prog y hy
    unfold Frame.program Frame.set at *
    rw [h.own, h.own'] at *
    dsimp only
    cases o with
    | none =>
      rcases Classical.em (y = x) with rfl | hne
      · simp only [lookup_cons_eq]
      · simpa only [lookup_cons_ne hne] using hf
    | some names => exact hf

/-- What is defined, as far as it is needed. -/
structure Bound (W : Names) (S : Sig → Prop) (d : List DefPart) (body : Block) : Prop where
  reads : ∀ x ∈ readsB body, W x ∨ x ∈ (paramsOf d).map Prod.fst
  free : ∀ x ∈ needsB body, W x
  calls : ∀ q ∈ callsB body, S q

/-- Functions that agree in some names, and need only these, and some variables. -/
def NearFns (W : Names) (S : Sig → Prop) (l l' : Fns) : Prop :=
  ∀ q, S q → l'.lookup q = l.lookup q ∧ ∀ d body, l.lookup q = some (.user d body) → defSig d = q ∧ Bound W S d body

/-- The same of states. -/
def NearSt (R : Rules) (o : Option (List (List Char))) (W : Names) (S : Sig → Prop) (V : Names) (s s' : State) : Prop :=
  Near R o W V s.fr s'.fr ∧ NearFns W S s.fns s'.fns

/-- Calls that notice nothing else. -/
def CallNear (R : Rules) (call : RunCall) : Prop := ∀ o W S V fr fr' l l' d body args, Near R o W V fr fr' → NearFns W S l l' → Bound W S d body →
  args.length = (paramsOf d).length →
  call fr' l' d body args = call fr l d body args

/-- Lists of so many. -/
def Count {α : Type} (n : ℕ) (m : M (List α)) : Prop := ∀ w l, (m w).1 = .ok l → l.length = n

namespace Count
variable {α β γ : Type}

theorem congr {n : ℕ} {m : M (List α)} (h : Count n m) {f f' : List α → M β} (hf : ∀ l, l.length = n → f l = f' l) : m >>= f = m >>= f' := by
  funext w
  rw [M.bind_apply, M.bind_apply]
  have := h w
  revert this
  rcases m w with ⟨r | l, v⟩ <;> intro this
  · rfl
  · exact congrFun (hf l (this l rfl)) v

theorem nil : Count 0 (Pure.pure [] : M (List α)) := fun _ l h => by cases h; rfl

theorem bind {n : ℕ} {m : M β} {f : β → M (List α)} (h : ∀ b, Count n (f b)) : Count n (m >>= f) := by
  intro w l
  rw [M.bind_apply]
  rcases m w with ⟨r | b, v⟩
  · intro h
    cases h
  · exact h b v l

theorem bindPure {n k : ℕ} {m : M (List γ)} {f : List γ → List α} (h : Count n m) (hf : ∀ b, b.length = n → (f b).length = k) :
    Count k (m >>= fun b => Pure.pure (f b)) := by
  intro w l
  rw [M.bind_apply]
  have := h w
  revert this
  rcases m w with ⟨r | b, v⟩ <;> intro this
  · intro h
    cases h
  · intro h
    cases h
    exact hf b (this b rfl)

theorem forList (f : α → M β) (l : List α) : Count l.length (M.forList f l) := by
  induction l with
  | nil => exact nil
  | cons a l ih => exact bind fun b => bindPure ih fun c hc => by rw [List.length_cons, List.length_cons, hc]

end Count

theorem forList_congr {α β : Type} {f f' : α → M β} {l : List α} (h : ∀ a ∈ l, f a = f' a) : M.forList f l = M.forList f' l := by
  induction l with
  | nil => rfl
  | cons a l ih =>
    rw [M.forList, M.forList, h a (List.mem_cons_self ..), ih fun b hb => h b (List.mem_cons_of_mem _ hb)]

theorem fnCall_congr {f f' : List Obj → M (Option Obj)} {args : List (Option Ty × Obj)} (h : ∀ os, os.length = args.length → f os = f' os) :
    fnCall f args = fnCall f' args := by
  have key : castCall f args = castCall f' args := by
    unfold castCall
    split
    · rfl
    · refine (Count.forList _ _).congr fun slots hl => ?_
      split
      · rw [forList_congr fun c hc => by rw [h c.1 (by rw [Sim.combos_length c hc, hl])]]
      · rename_i hh
        rw [h _ (by rw [Sim.combos_head_length (by simpa using hh), hl])]
  rw [fnCall, fnCall, key]

/-- The places of arguments in the name of a function. -/
def holes (q : Sig) : ℕ := q.countP fun x => x.isNone

theorem holes_defSig (d : List DefPart) : holes (defSig d) = (paramsOf d).length := by
  unfold paramsOf
  induction d with
  | nil => rfl
  | cons q d ih =>
    cases q with
    | word w => exact ih
    | param x => exact (List.countP_cons_of_pos rfl).trans (congrArg (· + 1) ih)
    | typed x t => exact (List.countP_cons_of_pos rfl).trans (congrArg (· + 1) ih)

theorem runArgs_length {R : Rules} {call : RunCall} {l : Fns} {fr : Frame} (cs : CallParts) :
    Count (holes (callSig cs)) (runArgs R call l fr cs) := by
  match cs with
  | .nil =>
    rw [runArgs]
    exact Count.nil
  | .word w cs =>
    rw [runArgs]
    exact runArgs_length cs
  | .arg e cs =>
    rw [runArgs]
    exact Count.bind fun a => Count.bindPure (runArgs_length cs) fun as h => by
      rw [List.length_cons, h]
      exact (List.countP_cons_of_pos rfl).symm

section
variable {R : Rules} {call : RunCall} {o : Option (List (List Char))} {W V : Names} {S : Sig → Prop} {fr fr' : Frame} {l l' : Fns}

theorem near_getVar (h : Near R o W V fr fr') {x : List Char} (hx : V x) : getVar R fr' x = getVar R fr x := by
  rw [getVar, getVar, h.find x hx]

theorem near_text (h : Near R o W V fr fr') (ps : List StrPart) (hx : ∀ x ∈ readsText ps, V x) : textOf R fr' ps = textOf R fr ps := by
  induction ps with
  | nil => rfl
  | cons p ps ih =>
    cases p with
    | text s => rw [textOf, textOf, ih (by simpa [readsText] using hx)]
    | var x =>
      rw [readsText] at hx
      rw [textOf, textOf, near_getVar h (hx x (List.mem_cons_self ..)), ih fun y hy => hx y (List.mem_cons_of_mem _ hy)]

theorem near_getFn (h : NearFns W S l l') {q : Sig} (hq : S q) : getFn l' q = getFn l q := by rw [getFn, getFn, (h q hq).1]

mutual

theorem near_E (hc : CallNear R call) (h : Near R o W V fr fr') (hl : NearFns W S l l') (e : Expr) (hv : ∀ x ∈ readsE e, V x)
    (hs : ∀ q ∈ callsE e, S q) : runE R call l' fr' e = runE R call l fr e := by
  match e with
  | .num _ | .dec _ _ | .str _ => simp only [runE]
  | .var x => rw [runE, runE, near_getVar h (hv x (by simp [readsE]))]
  | .group e =>
    rw [readsE] at hv
    rw [callsE] at hs
    rw [runE, runE, near_E hc h hl e hv hs]
  | .bin op a b =>
    rw [readsE] at hv
    rw [callsE] at hs
    rw [runE, runE, near_E hc h hl a (fun x hx => hv x (List.mem_append_left _ hx)) (fun x hx => hs x (List.mem_append_left _ hx)),
      near_E hc h hl b (fun x hx => hv x (List.mem_append_right _ hx)) (fun x hx => hs x (List.mem_append_right _ hx))]
  | .ndm a b =>
    rw [readsE] at hv
    rw [callsE] at hs
    rw [runE, runE, near_E hc h hl a (fun x hx => hv x (List.mem_append_left _ hx)) (fun x hx => hs x (List.mem_append_left _ hx)),
      near_E hc h hl b (fun x hx => hv x (List.mem_append_right _ hx)) (fun x hx => hs x (List.mem_append_right _ hx))]
  | .dm e =>
    rw [readsE] at hv
    rw [callsE] at hs
    rw [runE, runE, near_E hc h hl e hv hs]
  | .unary op e =>
    rw [readsE] at hv
    rw [callsE] at hs
    rw [runE, runE, near_E hc h hl e hv hs]
  | .hash e =>
    rw [readsE] at hv
    rw [callsE] at hs
    rw [runE, runE, near_E hc h hl e hv hs]
  | .seq es =>
    rw [readsE] at hv
    rw [callsE] at hs
    rw [runE, runE, near_L hc h hl es hv hs]
  | .call cs =>
    rw [readsE] at hv
    rw [callsE] at hs
    have hq := hs _ (List.mem_cons_self ..)
    rw [runE, runE, near_C hc h hl cs hv fun q hq => hs q (List.mem_cons_of_mem _ hq), near_getFn hl hq]
    rw [getFn]
    rcases hf : l.lookup (callSig cs) with _ | f
    · rfl
    · cases f with
      | lib g => rfl
      | user d body =>
        change (runArgs R call l fr cs >>= fun args => call fr' l' d body args) = (runArgs R call l fr cs >>= fun args => call fr l d body args)
        obtain ⟨hd, hb⟩ := (hl _ hq).2 d body hf
        refine (runArgs_length cs).congr fun args ha => ?_
        exact hc o W S V fr fr' l l' d body args h hl hb (by rw [ha, ← hd, holes_defSig])

theorem near_L (hc : CallNear R call) (h : Near R o W V fr fr') (hl : NearFns W S l l') (es : Elems) (hv : ∀ x ∈ readsElems es, V x)
    (hs : ∀ q ∈ callsElems es, S q) : runElems R call l' fr' es = runElems R call l fr es := by
  match es with
  | .nil => simp only [runElems]
  | .expr e es =>
    rw [readsElems] at hv
    rw [callsElems] at hs
    rw [runElems, runElems, near_E hc h hl e (fun x hx => hv x (List.mem_append_left _ hx)) (fun x hx => hs x (List.mem_append_left _ hx)),
      near_L hc h hl es (fun x hx => hv x (List.mem_append_right _ hx)) (fun x hx => hs x (List.mem_append_right _ hx))]
  | .range a b es =>
    rw [readsElems] at hv
    rw [callsElems] at hs
    simp only [List.mem_append] at hv hs
    rw [runElems, runElems, near_E hc h hl a (fun x hx => hv x (.inl (.inl hx))) (fun x hx => hs x (.inl (.inl hx))),
      near_E hc h hl b (fun x hx => hv x (.inl (.inr hx))) (fun x hx => hs x (.inl (.inr hx))),
      near_L hc h hl es (fun x hx => hv x (.inr hx)) (fun x hx => hs x (.inr hx))]

theorem near_C (hc : CallNear R call) (h : Near R o W V fr fr') (hl : NearFns W S l l') (cs : CallParts) (hv : ∀ x ∈ readsArgs cs, V x)
    (hs : ∀ q ∈ callsArgs cs, S q) : runArgs R call l' fr' cs = runArgs R call l fr cs := by
  match cs with
  | .nil => simp only [runArgs]
  | .word w cs =>
    rw [readsArgs] at hv
    rw [callsArgs] at hs
    rw [runArgs, runArgs, near_C hc h hl cs hv hs]
  | .arg e cs =>
    rw [readsArgs] at hv
    rw [callsArgs] at hs
    rw [runArgs, runArgs, near_E hc h hl e (fun x hx => hv x (List.mem_append_left _ hx)) (fun x hx => hs x (List.mem_append_left _ hx)),
      near_C hc h hl cs (fun x hx => hv x (List.mem_append_right _ hx)) (fun x hx => hs x (List.mem_append_right _ hx))]

end

theorem near_set (hc : CallNear R call) {s s' : State} (h : NearSt R o W S V s s') (n : List StrPart) (v : Expr) (hn : ∀ x ∈ readsText n, V x)
    (hv : ∀ x ∈ readsE v, V x) (hs : ∀ q ∈ callsE v, S q) : runSet R call s' n v = runSet R call s n v := by
  have key := near_E (R := R) hc h.1 h.2 v hv hs
  cases v with
  | str ps =>
    rw [readsE] at hv
    rw [runSet, runSet, near_text h.1 n hn, near_text h.1 ps hv]
  | _ =>
    rw [runSet, runSet, near_text h.1 n hn, key]
    all_goals (intro ps h; cases h)

/-- Results of statements that agree. -/
def NearRes (R : Rules) (o : Option (List (List Char))) (W : Names) (S : Sig → Prop) (V : Names) (r r' : State × Option Obj) : Prop :=
  r'.2 = r.2 ∧ NearSt R o W S V r.1 r'.1

theorem NearSt.weaken {U : Names} {s s' : State} (h : NearSt R o W S V s s') (h1 : ∀ x, W x → U x) (h2 : ∀ x, U x → V x) : NearSt R o W S U s s' :=
  ⟨h.1.weaken h1 h2, h.2⟩

theorem near_loop {f f' : State → ℤ → M (State × Option Obj)}
    (h : ∀ s s' n, NearSt R o W S V s s' → Both (NearRes R o W S V) (f s n) (f' s' n)) (ns : List ℤ) (s s' : State) (hs : NearSt R o W S V s s') :
    Both (NearRes R o W S V) (runLoop f ns s) (runLoop f' ns s') := by
  induction ns generalizing s s' with
  | nil => exact Both.pure ⟨rfl, hs⟩
  | cons n ns ih =>
    rw [runLoop, runLoop]
    refine (h s s' n hs).bind fun r r' hr => ?_
    rcases r with ⟨t, v⟩
    rcases r' with ⟨t', v'⟩
    obtain ⟨h1, h2⟩ := hr
    dsimp only at h1 h2 ⊢
    subst h1
    cases v' with
    | some v => exact Both.pure ⟨rfl, h2⟩
    | none => exact ih _ _ h2

mutual

theorem near_S (hc : CallNear R call) (st : Stmt) {V : Names} {s s' : State} (h : NearSt R o W S V s s') (hv : ∀ x ∈ readsS st, V x) (hf : ∀ x ∈ needsS st, W x)
    (hq : ∀ q ∈ callsS st, S q) (ho : ∀ names, o = some names → ∀ x ∈ assignsS st, x ∈ names) :
    Both (NearRes R o W S fun x => V x ∨ x ∈ givesS st) (runS R call st s) (runS R call st s') := by
  have hout : ∀ {g : List (List Char)}, g = [] → NearSt R o W S (fun x => V x ∨ x ∈ g) s s' := by
    rintro _ rfl
    exact h.weaken (fun x hx => .inl (h.1.sub x hx)) fun x hx => hx.resolve_right (by simp)
  match st with
  | .output e =>
    rw [readsS] at hv
    rw [callsS] at hq
    rw [runS, runS, near_E hc h.1 h.2 e hv hq]
    exact Both.same fun v => Both.same fun _ => Both.pure ⟨rfl, hout rfl⟩
  | .outputNamed e n =>
    rw [readsS] at hv
    rw [callsS] at hq
    rw [runS, runS, near_E hc h.1 h.2 e (fun x hx => hv x (List.mem_append_left _ hx)) hq,
      near_text h.1 n fun x hx => hv x (List.mem_append_right _ hx)]
    exact Both.same fun v => Both.same fun _ => Both.same fun _ => Both.pure ⟨rfl, hout rfl⟩
  | .set n v =>
    rw [readsS] at hv
    rw [callsS] at hq
    rw [runS, runS, near_set hc h n v (fun x hx => hv x (List.mem_append_left _ hx)) (fun x hx => hv x (List.mem_append_right _ hx)) hq]
    exact Both.same fun _ => Both.pure ⟨rfl, hout rfl⟩
  | .function d body =>
    rw [needsS] at hf
    rw [callsS] at hq
    rw [runS, runS]
    have hb : Bound W S d body := by
      refine ⟨fun x hx => ?_, fun x hx => hf x (List.mem_append_right _ hx), hq⟩
      by_cases hp : x ∈ (paramsOf d).map Prod.fst
      · exact .inr hp
      · exact .inl (hf x (List.mem_append_left _ (List.mem_filter.2 ⟨hx, by simpa using hp⟩)))
    refine Both.pure ⟨rfl, (hout (g := []) rfl).1, fun q hq => ?_⟩
    dsimp only
    rcases Classical.em (q = defSig d) with rfl | hne
    · rw [lookup_cons_eq, lookup_cons_eq]
      refine ⟨rfl, fun d' b' e => ?_⟩
      cases e
      exact ⟨rfl, hb⟩
    · rw [lookup_cons_ne hne, lookup_cons_ne hne]
      exact h.2 q hq
  | .result e =>
    rw [readsS] at hv
    rw [callsS] at hq
    rw [runS, runS, near_E hc h.1 h.2 e hv hq]
    exact Both.same fun v => Both.pure ⟨rfl, hout rfl⟩
  | .cond c b r =>
    rw [readsS] at hv
    rw [callsS] at hq
    rw [needsS] at hf
    simp only [List.mem_append] at hv hq hf
    rw [runS, runS, near_E hc h.1 h.2 c (fun x hx => hv x (.inl (.inl hx))) (fun x hx => hq x (.inl (.inl hx)))]
    refine Both.same fun v => Both.same fun t => ?_
    have fin : ∀ a a', NearRes R o W S V a a' → NearRes R o W S (fun x => V x ∨ x ∈ givesS (.cond c b r)) a a' := fun a a' ha =>
      ⟨ha.1, ha.2.weaken (fun x hx => .inl (h.1.sub x hx)) fun x hx => hx.resolve_right (by simp [givesS])⟩
    cases t with
    | true => exact (near_B hc b h (fun x hx => hv x (.inl (.inr hx))) (fun x hx => hf x (.inl hx)) (fun x hx => hq x (.inl (.inr hx)))
        fun ns e x hx => ho ns e x (by rw [assignsS]; exact List.mem_append_left _ hx)).mono fin
    | false => exact (near_alt hc r h (fun x hx => hv x (.inr hx)) (fun x hx => hf x (.inr hx)) (fun x hx => hq x (.inr hx))
        fun ns e x hx => ho ns e x (by rw [assignsS]; exact List.mem_append_right _ hx)).mono fin
  | .loop x e b =>
    rw [readsS] at hv
    rw [callsS] at hq
    rw [needsS] at hf
    rw [assignsS] at ho
    simp only [List.mem_append] at hv hq
    rw [runS, runS, near_E hc h.1 h.2 e (fun x hx => hv x (.inl hx)) (fun x hx => hq x (.inl hx))]
    refine Both.same fun v => Both.same fun ns => ?_
    refine (near_loop (V := V) (fun t t' n ht => ?_) ns s s' h).mono fun a a' ha =>
      ⟨ha.1, ha.2.weaken (fun x hx => .inl (h.1.sub x hx)) fun x hx => hx.resolve_right (by simp [givesS])⟩
    have hs := ht.1.set (x := x) (fun ns e => ho ns e x (List.mem_cons_self ..)) (.num n)
    refine (near_B hc b (V := fun y => V y ∨ y = x) (s := ⟨t.fns, t.fr.set x (.num n)⟩) (s' := ⟨t'.fns, t'.fr.set x (.num n)⟩) ⟨hs, ht.2⟩ (fun y hy => ?_) hf (fun q hx => hq q (.inr hx))
      fun ns e y hy => ho ns e y (List.mem_cons_of_mem _ hy)).mono fun a a' ha => ⟨ha.1, ha.2.weaken h.1.sub fun y hy => .inl hy⟩
    by_cases hyx : y = x
    · exact .inr hyx
    · exact .inl (hv y (.inr (List.mem_filter.2 ⟨hy, by simpa using hyx⟩)))
  | .assign x e =>
    rw [readsS] at hv
    rw [callsS] at hq
    rw [runS, runS, near_E hc h.1 h.2 e hv hq]
    refine Both.same fun v => Both.pure ⟨rfl, ?_, h.2⟩
    have hs := h.1.set (x := x) (fun ns e => ho ns e x (by rw [assignsS]; exact List.mem_singleton.2 rfl)) v
    refine hs.weaken (fun y hy => .inl (h.1.sub y hy)) fun y hy => ?_
    rw [givesS, List.mem_singleton] at hy
    exact hy

theorem near_B (hc : CallNear R call) (b : Block) {V : Names} {s s' : State} (h : NearSt R o W S V s s') (hv : ∀ x ∈ readsB b, V x)
    (hf : ∀ x ∈ needsB b, W x) (hq : ∀ q ∈ callsB b, S q) (ho : ∀ names, o = some names → ∀ x ∈ assignsB b, x ∈ names) :
    Both (NearRes R o W S V) (runB R call b s) (runB R call b s') := by
  match b with
  | .nil =>
    rw [runB, runB]
    exact Both.pure ⟨rfl, h⟩
  | .cons st b =>
    rw [readsB] at hv
    rw [needsB] at hf
    rw [callsB] at hq
    rw [assignsB] at ho
    rw [runB, runB]
    have first := near_S hc st h (fun x hx => hv x (List.mem_append_left _ hx)) (fun x hx => hf x (List.mem_append_left _ hx))
      (fun x hx => hq x (List.mem_append_left _ hx)) (fun ns e x hx => ho ns e x (List.mem_append_left _ hx))
    refine first.bind fun r r' hr => ?_
    rcases r with ⟨t, v⟩
    rcases r' with ⟨t', v'⟩
    obtain ⟨h1, h2⟩ := hr
    dsimp only at h1 h2 ⊢
    subst h1
    cases v' with
    | some v => exact Both.pure ⟨rfl, h2.weaken h.1.sub fun x hx => .inl hx⟩
    | none =>
      refine (near_B hc b h2 (fun x hx => ?_) (fun x hx => hf x (List.mem_append_right _ hx))
        (fun x hx => hq x (List.mem_append_right _ hx)) fun ns e x hx => ho ns e x (List.mem_append_right _ hx)).mono fun a a' ha =>
        ⟨ha.1, ha.2.weaken h.1.sub fun x hx => .inl hx⟩
      by_cases hg : x ∈ givesS st
      · exact .inr hg
      · exact .inl (hv x (List.mem_append_right _ (List.mem_filter.2 ⟨hx, by simpa using hg⟩)))

theorem near_alt (hc : CallNear R call) (r : Else) {V : Names} {s s' : State} (h : NearSt R o W S V s s') (hv : ∀ x ∈ readsAlt r, V x)
    (hf : ∀ x ∈ needsAlt r, W x) (hq : ∀ q ∈ callsAlt r, S q) (ho : ∀ names, o = some names → ∀ x ∈ assignsE r, x ∈ names) :
    Both (NearRes R o W S V) (runElse R call r s) (runElse R call r s') := by
  match r with
  | .done =>
    rw [runElse, runElse]
    exact Both.pure ⟨rfl, h⟩
  | .else_ b =>
    rw [readsAlt] at hv
    rw [needsAlt] at hf
    rw [callsAlt] at hq
    rw [assignsE] at ho
    rw [runElse, runElse]
    exact near_B hc b h hv hf hq ho
  | .elif c b r =>
    rw [readsAlt] at hv
    rw [needsAlt] at hf
    rw [callsAlt] at hq
    rw [assignsE] at ho
    simp only [List.mem_append] at hv hq hf
    rw [runElse, runElse, near_E hc h.1 h.2 c (fun x hx => hv x (.inl (.inl hx))) (fun x hx => hq x (.inl (.inl hx)))]
    refine Both.same fun v => Both.same fun t => ?_
    cases t with
    | true =>
      exact near_B hc b h (fun x hx => hv x (.inl (.inr hx))) (fun x hx => hf x (.inl hx)) (fun x hx => hq x (.inl (.inr hx)))
        (fun ns e x hx => ho ns e x (List.mem_append_left _ hx))
    | false =>
      exact near_alt hc r h (fun x hx => hv x (.inr hx)) (fun x hx => hf x (.inr hx)) (fun x hx => hq x (.inr hx))
        (fun ns e x hx => ho ns e x (List.mem_append_right _ hx))

end

end

theorem lookup_append_some {α β : Type} [BEq α] {l l' : List (α × β)} {x : α} {o : β} (h : l.lookup x = some o) : (l ++ l').lookup x = some o := by
  rw [List.lookup_append, h]
  rfl

theorem callNear (R : Rules) (n : ℕ) : CallNear R (runCall R n) := by
  induction n with
  | zero =>
    intro o W S V fr fr' l l' d body args _ _ _ _
    rfl
  | succ n ih =>
    intro o W S V fr fr' l l' d body args h hl hb ha
    rw [runCall]
    refine fnCall_congr fun os hos => ?_
    have hlen : ((paramsOf d).map Prod.fst).length = os.length := by
      rw [hos, List.length_zip, List.length_map, List.length_map, ha, min_self]
    have hin : ∃ o', (R.copy = true ∨ o' = some ((paramsOf d).map Prod.fst ++ assignsB body)) ∧ (R.copy = true → o' = none) ∧
        Near R o' W (fun x => W x ∨ x ∈ (paramsOf d).map Prod.fst) (enter R fr d body os) (enter R fr' d body os) := by
      unfold Spec.enter
      by_cases hR : R.copy = true
      · rw [if_pos hR, if_pos hR]
        have ho := h.copy hR
        have henv : ∀ x, W x → fr'.env.lookup x = fr.env.lookup x := fun x hx => by
          have := h.prog x hx
          rwa [Frame.program, Frame.program, h.own, h.own', ho] at this
        refine ⟨none, .inl hR, fun _ => rfl, fun _ => rfl, rfl, rfl, fun x hx => .inl hx, fun x hx => ?_, fun x hx => ?_⟩
        · rw [Frame.find, Frame.find]
          dsimp only
          by_cases hp : x ∈ (paramsOf d).map Prod.fst
          · obtain ⟨v, hv⟩ := lookup_zip_some hlen hp
            rw [lookup_append_some hv, lookup_append_some hv]
          · rw [List.lookup_append, List.lookup_append, henv x (hx.resolve_right hp)]
        · rw [Frame.program, Frame.program]
          dsimp only
          rw [List.lookup_append, List.lookup_append, henv x hx]
      · rw [if_neg hR, if_neg hR]
        refine ⟨_, .inr rfl, fun h => absurd h hR, fun h => absurd h hR, rfl, rfl, fun x hx => .inl hx, fun x hx => ?_, fun x hx => ?_⟩
        · rw [Frame.find, Frame.find]
          dsimp only
          split
          · rfl
          · rename_i hn
            exact h.prog x (hx.resolve_right fun hp => hn (List.mem_append_left _ hp))
        · exact h.prog x hx
    obtain ⟨o', ho, hcopy, hin⟩ := hin
    have key := near_B (R := R) ih body (V := fun x => W x ∨ x ∈ (paramsOf d).map Prod.fst) (s := ⟨l, enter R fr d body os⟩)
      (s' := ⟨l', enter R fr' d body os⟩) ⟨hin, hl⟩ hb.reads hb.free hb.calls fun names e x hx => by
        rcases ho with hR | ho
        · rw [hcopy hR] at e
          cases e
        · rw [ho] at e
          cases e
          exact List.mem_append_right _ hx
    funext w
    obtain ⟨h1, h2, h3⟩ := key w
    rw [M.bind_apply, M.bind_apply]
    rcases hr : runB R (runCall R n) body ⟨l, enter R fr d body os⟩ w with ⟨r, v⟩
    rcases hr' : runB R (runCall R n) body ⟨l', enter R fr' d body os⟩ w with ⟨r', v'⟩
    rw [hr, hr'] at h1 h2 h3
    dsimp only at h1 h2 h3
    subst h1
    cases r with
    | error e =>
      have := h2 e rfl
      subst this
      rfl
    | ok a =>
      obtain ⟨a', rfl, hres, _⟩ := h3 a rfl
      exact congrArg (fun x => ((Except.ok x, v') : Except Err (Option Obj) × World)) hres

/-- What a statement without results leaves: all but the variables and functions that it gives values to. -/
structure Kept (xs : List (List Char)) (qs : List Sig) (s : State) (r : State × Option Obj) : Prop where
  none : r.2 = none
  own : r.1.fr.own = s.fr.own
  outer : r.1.fr.outer = s.fr.outer
  env : ∀ x, x ∉ xs → r.1.fr.env.lookup x = s.fr.env.lookup x
  fns : ∀ q, q ∉ qs → r.1.fns.lookup q = s.fns.lookup q

theorem Kept.refl (xs : List (List Char)) (qs : List Sig) (s : State) : Kept xs qs s (s, Option.none) := ⟨rfl, rfl, rfl, fun _ _ => rfl, fun _ _ => rfl⟩

theorem Kept.trans {xs xs' : List (List Char)} {qs qs' : List Sig} {s : State} {r r' : State × Option Obj} (h : Kept xs qs s r) (h' : Kept xs' qs' r.1 r') :
    Kept (xs ++ xs') (qs ++ qs') s r' :=
  ⟨h'.none, h'.own.trans h.own, h'.outer.trans h.outer,
    fun x hx => (h'.env x fun h => hx (List.mem_append_right _ h)).trans (h.env x fun h => hx (List.mem_append_left _ h)),
    fun x hx => (h'.fns x fun h => hx (List.mem_append_right _ h)).trans (h.fns x fun h => hx (List.mem_append_left _ h))⟩

theorem Kept.mono {xs xs' : List (List Char)} {qs qs' : List Sig} {s : State} {r : State × Option Obj} (h : Kept xs qs s r)
    (hx : ∀ x ∈ xs, x ∈ xs') (hq : ∀ x ∈ qs, x ∈ qs') : Kept xs' qs' s r :=
  ⟨h.none, h.own, h.outer, fun x hn => h.env x fun h => hn (hx x h), fun x hn => h.fns x fun h => hn (hq x h)⟩

theorem Kept.set (s : State) (x : List Char) (v : Obj) : Kept [x] [] s (⟨s.fns, s.fr.set x v⟩, Option.none) :=
  ⟨rfl, rfl, rfl, fun y hy => lookup_cons_ne (fun h => hy (List.mem_singleton.2 h)) _ _, fun _ _ => rfl⟩

/-- What is true of all results of a computation. -/
def Leads {α : Type} (P : α → Prop) (m : M α) : Prop := ∀ w a, (m w).1 = .ok a → P a

namespace Leads
variable {α β : Type}

theorem pure {P : α → Prop} {a : α} (h : P a) : Leads P (Pure.pure a) := fun _ b hb => by cases hb; exact h

theorem bind {P : α → Prop} {Q : β → Prop} {m : M α} {f : α → M β} (hm : Leads P m) (hf : ∀ a, P a → Leads Q (f a)) : Leads Q (m >>= f) := by
  intro w b hb
  rw [M.bind_apply] at hb
  rcases hr : m w with ⟨r, v⟩
  rw [hr] at hb
  cases r with
  | error e => cases hb
  | ok a => exact hf a (hm w a (by rw [hr])) v b hb

theorem any {Q : β → Prop} {m : M α} {f : α → M β} (hf : ∀ a, Leads Q (f a)) : Leads Q (m >>= f) :=
  bind (P := fun _ => True) (fun _ _ _ => trivial) fun a _ => hf a

theorem mono {P Q : α → Prop} {m : M α} (h : Leads P m) (hPQ : ∀ a, P a → Q a) : Leads Q m := fun w a ha => hPQ a (h w a ha)

end Leads

theorem kept_loop {xs : List (List Char)} {qs : List Sig} {f : State → ℤ → M (State × Option Obj)} (h : ∀ s n, Leads (Kept xs qs s) (f s n))
    (ns : List ℤ) (s : State) : Leads (Kept xs qs s) (runLoop f ns s) := by
  induction ns generalizing s with
  | nil => exact Leads.pure (Kept.refl ..)
  | cons n ns ih =>
    rw [runLoop]
    refine (h s n).bind fun r hr => ?_
    rcases r with ⟨t, v⟩
    have hv := hr.none
    dsimp only at hv
    subst hv
    exact (ih t).mono fun a ha => (hr.trans ha).mono (fun x hx => (List.mem_append.1 hx).elim id id) fun x hx => (List.mem_append.1 hx).elim id id

section
variable {R : Rules} {call : RunCall}

mutual

theorem kept_S (st : Stmt) (s : State) (h : noResultS st = true) : Leads (Kept (assignsS st) (definesS st) s) (runS R call st s) := by
  match st with
  | .output e =>
    rw [runS]
    exact Leads.any fun _ => Leads.any fun _ => Leads.pure (Kept.refl ..)
  | .outputNamed e n =>
    rw [runS]
    exact Leads.any fun _ => Leads.any fun _ => Leads.any fun _ => Leads.pure (Kept.refl ..)
  | .set n v =>
    rw [runS]
    exact Leads.any fun _ => Leads.pure (Kept.refl ..)
  | .function d body =>
    rw [runS, definesS]
    exact Leads.pure ⟨rfl, rfl, rfl, fun _ _ => rfl, fun q hq => lookup_cons_ne (fun h => hq (List.mem_singleton.2 h)) _ _⟩
  | .result e => cases h
  | .cond c b r =>
    rw [noResultS, Bool.and_eq_true] at h
    rw [runS, assignsS, definesS]
    refine Leads.any fun _ => Leads.any fun t => ?_
    cases t with
    | true => exact (kept_B b s h.1).mono fun a ha => ha.mono (fun x hx => List.mem_append_left _ hx) fun x hx => List.mem_append_left _ hx
    | false => exact (kept_alt r s h.2).mono fun a ha => ha.mono (fun x hx => List.mem_append_right _ hx) fun x hx => List.mem_append_right _ hx
  | .loop x e b =>
    rw [noResultS] at h
    rw [runS, assignsS, definesS]
    refine Leads.any fun _ => Leads.any fun ns => kept_loop (fun s n => ?_) ns s
    exact (kept_B b _ h).mono fun a ha => (Kept.set s x (.num n)).trans ha
  | .assign x e =>
    rw [runS, assignsS]
    exact Leads.any fun v => Leads.pure ((Kept.set s x v).mono (fun _ h => h) fun _ h => by cases h)

theorem kept_B (b : Block) (s : State) (h : noResultB b = true) : Leads (Kept (assignsB b) (definesB b) s) (runB R call b s) := by
  match b with
  | .nil =>
    rw [runB]
    exact Leads.pure (Kept.refl ..)
  | .cons st b =>
    rw [noResultB, Bool.and_eq_true] at h
    rw [runB, assignsB, definesB]
    refine (kept_S st s h.1).bind fun r hr => ?_
    rcases r with ⟨t, v⟩
    have hv := hr.none
    dsimp only at hv
    subst hv
    exact (kept_B b t h.2).mono fun a ha => hr.trans ha

theorem kept_alt (r : Else) (s : State) (h : noResultE r = true) : Leads (Kept (assignsE r) (definesAlt r) s) (runElse R call r s) := by
  match r with
  | .done =>
    rw [runElse]
    exact Leads.pure (Kept.refl ..)
  | .else_ b =>
    rw [noResultE] at h
    rw [runElse, assignsE, definesAlt]
    exact kept_B b s h
  | .elif c b r =>
    rw [noResultE, Bool.and_eq_true] at h
    rw [runElse, assignsE, definesAlt]
    refine Leads.any fun _ => Leads.any fun t => ?_
    cases t with
    | true => exact (kept_B b s h.1).mono fun a ha => ha.mono (fun x hx => List.mem_append_left _ hx) fun x hx => List.mem_append_left _ hx
    | false => exact (kept_alt r s h.2).mono fun a ha => ha.mono (fun x hx => List.mem_append_right _ hx) fun x hx => List.mem_append_right _ hx

end

theorem runB_follow (b c : Block) (s : State) : runB R call (follow b c) s = runB R call b s >>= fun r =>
    match r.2 with
    | some v => pure (r.1, some v)
    | none => runB R call c r.1 := by
  match b with
  | .nil =>
    rw [follow]
    rfl
  | .cons st b =>
    rw [follow, runB, runB, bind_assoc]
    refine bind_congr fun r => ?_
    rcases r with ⟨t, _ | v⟩
    · exact runB_follow b c t
    · rfl

end

/-- The state at the beginning of a program. -/
def begin_ (R : Rules) : State := ⟨if R.lib then libraryFns else [], ⟨none, [], []⟩⟩

theorem run_begin (R : Rules) (n : ℕ) (b : Block) (w : World) : run R n b w =
    match runB R (runCall R n) b (begin_ R) { w with outs := [] } with
    | (.error e, v) => (.error e, v)
    | (.ok _, v) => (.ok v.outs, v) := by
  have e : run R n b w = (runB R (runCall R n) b (begin_ R) >>= fun _ =>
      (M.get >>= fun w => pure w.outs : M (List (Obj × Option PyText)))) { w with outs := [] } := rfl
  rw [e, M.bind_apply]
  rcases runB R (runCall R n) b (begin_ R) { w with outs := [] } with ⟨r | r, v⟩ <;> rfl

theorem library_not_user (R : Rules) {q : Sig} {d : List DefPart} {body : Block} (h : (begin_ R).fns.lookup q = some (.user d body)) : False := by
  unfold begin_ at h
  by_cases hl : R.lib = true
  · simp only [if_pos hl] at h
    obtain ⟨p, hp, e⟩ := lookup_mem h
    simp only [libraryFns, List.mem_cons, List.not_mem_nil, or_false] at hp
    rcases hp with rfl | hp
    · cases e
    repeat (rcases hp with rfl | hp; · cases e)
  · simp only [if_neg hl] at h
    cases h

/-- After a program, one that needs nothing of it does what it would do at the beginning. -/
theorem near_after {R : Rules} {n : ℕ} {b c : Block} {s : State} {v : Option Obj} (h : Independent b c) (hk : Kept (assignsB b) (definesB b) (begin_ R) (s, v)) :
    Both (fun _ _ => True) (runB R (runCall R n) c (begin_ R)) (runB R (runCall R n) c s) := by
  have ho : s.fr.own = none := hk.own
  refine (near_B (o := none) (W := fun x => x ∉ assignsB b) (S := fun q => q ∉ definesB b) (V := fun x => x ∉ assignsB b) (callNear R n) c
    ⟨⟨fun _ => rfl, rfl, ho, fun _ h => h, fun x hx => ?_, fun x hx => ?_⟩, fun q hq => ⟨hk.fns q hq, fun d body e => (library_not_user R e).elim⟩⟩
    (fun x hx => h.1 x (List.mem_append_left _ hx)) (fun x hx => h.1 x (List.mem_append_right _ hx)) h.2 fun _ e => by cases e).mono fun _ _ _ => trivial
  · have := hk.env x hx
    rw [Frame.find, Frame.find, ho]
    exact this
  · have := hk.env x hx
    rw [Frame.program, Frame.program, ho]
    exact this

theorem follow_fails {R : Rules} {n : ℕ} {b c : Block} {w : World} {e : Err} (h : (run R n b w).1 = .error e) : run R n (follow b c) w = run R n b w := by
  rw [run_begin] at h ⊢
  rw [run_begin, runB_follow, M.bind_apply]
  revert h
  rcases runB R (runCall R n) b (begin_ R) { w with outs := [] } with ⟨r | r, v⟩ <;> intro h
  · rfl
  · cases h

/-- What two programs do, one after the other. -/
theorem follow_run {R : Rules} {n : ℕ} {b c : Block} (hr : noResultB b = true) (hi : Independent b c) {w : World} {o : List (Obj × Option PyText)}
    (h : (run R n b w).1 = .ok o) : run R n (follow b c) w =
      ((run R n c (run R n b w).2).1.map (o ++ ·), (run R n c (run R n b w).2).2.ahead o) := by
  rw [run_begin R n b w] at h ⊢
  rw [run_begin R n (follow b c), runB_follow, M.bind_apply]
  have hk := kept_B (R := R) (call := runCall R n) b (begin_ R) hr { w with outs := [] }
  revert h hk
  rcases runB R (runCall R n) b (begin_ R) { w with outs := [] } with ⟨r | ⟨s, r⟩, v⟩ <;> intro h hk
  · cases h
  · cases h
    have hk := hk _ rfl
    have hn := hk.none
    dsimp only at hn ⊢
    subst hn
    rw [run_begin]
    have hl : runB R (runCall R n) c (begin_ R) v = ((runB R (runCall R n) c (begin_ R) { v with outs := [] }).1,
        (runB R (runCall R n) c (begin_ R) { v with outs := [] }).2.ahead v.outs) := by
      have := block_onward R n c { v with outs := [] } v.outs
      rwa [show ({ v with outs := [] } : World).ahead v.outs = v by unfold World.ahead; dsimp only; rw [List.append_nil]] at this
    obtain ⟨h1, h2, h3⟩ := near_after (n := n) hi hk v
    rw [hl] at h1 h2 h3
    dsimp only
    generalize runB R (runCall R n) c (begin_ R) { v with outs := [] } = p1 at h1 h2 h3 ⊢
    generalize runB R (runCall R n) c s v = p3 at h1 h2 h3 ⊢
    rcases p1 with ⟨y, v1⟩
    rcases p3 with ⟨y', v3⟩
    dsimp only at h1 h2 h3 ⊢
    subst h1
    cases y with
    | error e =>
      have := h2 e rfl
      subst this
      rfl
    | ok a =>
      obtain ⟨a', rfl, _⟩ := h3 a rfl
      rfl

end PythonDice
