import Verif.Proofs.Sequel
import Verif.Spec.Insert

/-!
# Parts of a program that do not need each other
-/

namespace PythonDice

open Spec Compiler

section
variable {R : Rules} {call : RunCall}

theorem functions_loop {Q : Sig × Fn → Prop} {f : State → ℤ → M (State × Option Obj)}
    (h : ∀ s n, (∀ p ∈ s.fns, Q p) → Leads (fun r : State × Option Obj => ∀ p ∈ r.1.fns, Q p) (f s n)) (ns : List ℤ) :
    ∀ s : State, (∀ p ∈ s.fns, Q p) → Leads (fun r : State × Option Obj => ∀ p ∈ r.1.fns, Q p) (runLoop f ns s) := by
  induction ns with
  | nil => exact fun s hs => Leads.pure hs
  | cons n ns ih =>
    intro s hs
    rw [runLoop]
    refine (h s n hs).bind fun r hr => ?_
    rcases r with ⟨t, _ | v⟩
    · exact ih t hr
    · exact Leads.pure hr

mutual

/-- What is true of the functions before a statement and of those that it defines is true of the functions after it. -/
theorem functions_S {Q : Sig × Fn → Prop} (st : Stmt) (hd : ∀ p ∈ functionsS st, Q (defSig p.1, .user p.1 p.2)) (s : State) (hs : ∀ p ∈ s.fns, Q p) :
    Leads (fun r : State × Option Obj => ∀ p ∈ r.1.fns, Q p) (runS R call st s) := by
  match st with
  | .output e =>
    rw [runS]
    exact Leads.any fun _ => Leads.any fun _ => Leads.pure hs
  | .outputNamed e n =>
    rw [runS]
    exact Leads.any fun _ => Leads.any fun _ => Leads.any fun _ => Leads.pure hs
  | .set n v =>
    rw [runS]
    exact Leads.any fun _ => Leads.pure hs
  | .function d body =>
    rw [functionsS] at hd
    rw [runS]
    refine Leads.pure fun p hp => ?_
    rcases List.mem_cons.1 hp with rfl | hp
    · exact hd (d, body) (List.mem_singleton.2 rfl)
    · exact hs p hp
  | .result e =>
    rw [runS]
    exact Leads.any fun _ => Leads.pure hs
  | .cond c b r =>
    rw [functionsS] at hd
    rw [runS]
    refine Leads.any fun _ => Leads.any fun t => ?_
    cases t with
    | true => exact functions_B b (fun p hp => hd p (List.mem_append_left _ hp)) s hs
    | false => exact functions_alt r (fun p hp => hd p (List.mem_append_right _ hp)) s hs
  | .loop x e b =>
    rw [functionsS] at hd
    rw [runS]
    exact Leads.any fun _ => Leads.any fun ns =>
      functions_loop (fun s n hs => functions_B b hd { s with fr := s.fr.set x (.num n) } hs) ns s hs
  | .assign x e =>
    rw [runS]
    exact Leads.any fun v => Leads.pure hs

theorem functions_B {Q : Sig × Fn → Prop} (b : Block) (hd : ∀ p ∈ functionsB b, Q (defSig p.1, .user p.1 p.2)) (s : State) (hs : ∀ p ∈ s.fns, Q p) :
    Leads (fun r : State × Option Obj => ∀ p ∈ r.1.fns, Q p) (runB R call b s) := by
  match b with
  | .nil =>
    rw [runB]
    exact Leads.pure hs
  | .cons st b =>
    rw [functionsB] at hd
    rw [runB]
    refine (functions_S st (fun p hp => hd p (List.mem_append_left _ hp)) s hs).bind fun r hr => ?_
    rcases r with ⟨t, _ | v⟩
    · exact functions_B b (fun p hp => hd p (List.mem_append_right _ hp)) t hr
    · exact Leads.pure hr

theorem functions_alt {Q : Sig × Fn → Prop} (r : Else) (hd : ∀ p ∈ functionsAlt r, Q (defSig p.1, .user p.1 p.2)) (s : State) (hs : ∀ p ∈ s.fns, Q p) :
    Leads (fun r : State × Option Obj => ∀ p ∈ r.1.fns, Q p) (runElse R call r s) := by
  match r with
  | .done =>
    rw [runElse]
    exact Leads.pure hs
  | .else_ b =>
    rw [functionsAlt] at hd
    rw [runElse]
    exact functions_B b hd s hs
  | .elif c b r =>
    rw [functionsAlt] at hd
    rw [runElse]
    refine Leads.any fun _ => Leads.any fun t => ?_
    cases t with
    | true => exact functions_B b (fun p hp => hd p (List.mem_append_left _ hp)) s hs
    | false => exact functions_alt r (fun p hp => hd p (List.mem_append_right _ hp)) s hs

end

end

/-- A function that came from one of these definitions, or is one of the library. -/
def From (ds : List (List DefPart × Block)) (p : Sig × Fn) : Prop := ∀ d body, p.2 = .user d body → defSig d = p.1 ∧ (d, body) ∈ ds

/-- A state in a program: what its functions do, and where they are from. -/
structure Fit (z : Bool) (ds : List (List DefPart × Block)) (s : State) : Prop where
  own : s.fr.own = none
  tidy : FnsTidy s.fns
  replay : FnsReplay z s.fns
  onward : FnsOnward s.fns
  fns : ∀ p ∈ s.fns, From ds p

theorem fit_begin (R : Rules) (z : Bool) (ds : List (List DefPart × Block)) : Fit z ds (begin_ R) :=
  ⟨rfl, libraryFns_tidy R, libraryFns_replay R z, libraryFns_onward R, fun p hp d body e => by
    exfalso
    unfold begin_ at hp
    by_cases hl : R.lib = true
    · simp only [if_pos hl] at hp
      simp only [libraryFns, List.mem_cons, List.not_mem_nil, or_false] at hp
      rcases hp with rfl | hp
      · cases e
      repeat (rcases hp with rfl | hp; · cases e)
    · simp only [if_neg hl] at hp
      cases hp⟩

/-- The state after a part without results. -/
theorem fit_after {R : Rules} {n : ℕ} {z : Bool} {ds : List (List DefPart × Block)} {b : Block} (hr : noResultB b = true) (hz : LeavesZeros b)
    (hq : QuietFunctions b) (hd : ∀ p ∈ functionsB b, p ∈ ds) {s : State} (hs : Fit z ds s) :
    Leads (fun r => Fit z ds r.1) (runB R (runCall R n) b s) := by
  intro w r h
  refine ⟨?_, ?_, ?_, ?_, ?_⟩
  · exact (kept_B b s hr w r h).own.trans hs.own
  · exact functions_B (Q := fun p => FnTidy p.2) b (fun p hp => hq p hp) s hs.tidy w r h
  · exact (replays_B (replays_call n) b hz s hs.replay).2 w r h
  · exact (onward_B (onward_call (R := R) n) b s hs.onward).2 w r h
  · refine functions_B (Q := From ds) b (fun p hp d body e => ?_) s hs.fns w r h
    cases e
    exact ⟨rfl, hd p hp⟩

/-- The state without the outputs. -/
def World.bare (w : World) : World := { w with outs := [] }

theorem onward_bare {α : Type} {m : M α} (h : Onward m) (w : World) : m w = ((m w.bare).1, (m w.bare).2.ahead w.outs) := by
  have := h w.bare w.outs
  rwa [show w.bare.ahead w.outs = w by unfold World.bare World.ahead; dsimp only; rw [List.append_nil]] at this

/-- States of the interpreter in which a program does the same. -/
structure Equal (z : Bool) (w w' : World) : Prop where
  settings : Alike w.settings w'.settings
  left : MemoPure z w
  right : MemoPure z w'

theorem Equal.trans {z : Bool} {a b c : World} (h : Equal z a b) (g : Equal z b c) : Equal z a c := ⟨h.settings.trans g.settings, h.left, g.right⟩

theorem Equal.symm {z : Bool} {a b : World} (h : Equal z a b) : Equal z b a :=
  ⟨⟨h.settings.zeros.symm, h.settings.order.symm, h.settings.explode.symm, h.settings.depth.symm, h.settings.now.symm⟩, h.right, h.left⟩

/-- In such states a part of a program gives the same, and adds the same outputs. -/
theorem equal_part {R : Rules} {n : ℕ} {z : Bool} {ds : List (List DefPart × Block)} {c : Block} (hz : LeavesZeros c) {s : State} (hs : Fit z ds s)
    {w w' : World} (h : Equal z w w') : ∃ r q v v', Equal z v v' ∧ runB R (runCall R n) c s w = (r, { v with outs := w.outs ++ q }) ∧
      runB R (runCall R n) c s w' = (r, { v' with outs := w'.outs ++ q }) := by
  have ho := (onward_B (R := R) (onward_call (R := R) n) c s hs.onward).1
  obtain ⟨h1, h2⟩ := (replays_B (R := R) (replays_call (R := R) n) c hz s hs.replay).1 w.bare w'.bare [] ⟨h.settings, rfl, h.left, h.right⟩
  refine ⟨_, (runB R (runCall R n) c s w.bare).2.outs, (runB R (runCall R n) c s w.bare).2, (runB R (runCall R n) c s w'.bare).2,
    ⟨h2.settings, h2.left, h2.right⟩, onward_bare ho w, ?_⟩
  rw [onward_bare ho w', h1]
  have e := h2.outs
  rw [List.nil_append] at e
  unfold World.ahead
  rw [e]

/-- A part that sets nothing and succeeds leaves such a state. -/
theorem equal_after {R : Rules} {n : ℕ} {z : Bool} {ds : List (List DefPart × Block)} {m : Block} (hm : SetsNothing m) {s : State} (hs : Fit z ds s)
    {w : World} (hw : MemoPure z w) {r : State × Option Obj} (h : (runB R (runCall R n) m s w).1 = .ok r) :
    Equal z w (runB R (runCall R n) m s w).2 :=
  ⟨(tidy_B (tidy_call n) m hm s hs.tidy).1 w r h, hw,
    ((replays_B (R := R) (replays_call (R := R) n) m hm.leaves s hs.replay).1 w w [] ⟨Alike.refl _, rfl, hw, hw⟩).2.left⟩

theorem lookup_entry_mem {fns : Fns} {q : Sig} {f : Fn} (h : fns.lookup q = some f) : (q, f) ∈ fns := by
  induction fns with
  | nil => cases h
  | cons p l ih =>
    rcases p with ⟨t, g⟩
    by_cases e : q = t
    · subst e
      rw [lookup_cons_eq] at h
      cases h
      exact List.mem_cons_self ..
    · rw [lookup_cons_ne e] at h
      exact List.mem_cons_of_mem _ (ih h)

/-- After a part that is not needed, what follows does the same. -/
theorem near_unneeded {R : Rules} {n : ℕ} {z : Bool} {a m c : Block} (h : Unneeded a m c) {s t : State} (hs : Fit z (functionsB a) s)
    (hk : Kept (assignsB m) (definesB m) s (t, none)) :
    Both (NearRes R none (fun x => x ∉ assignsB m) (fun q => q ∉ definesB m) fun x => x ∉ assignsB m) (runB R (runCall R n) c s)
      (runB R (runCall R n) c t) := by
  have ho : t.fr.own = none := hk.own.trans hs.own
  refine near_B (callNear R n) c ⟨⟨fun _ => rfl, hs.own, ho, fun _ h => h, fun x hx => ?_, fun x hx => ?_⟩, fun q hq => ⟨hk.fns q hq, fun d body e => ?_⟩⟩
    (fun x hx => h.2.1 x (List.mem_append_left _ hx)) (fun x hx => h.2.1 x (List.mem_append_right _ hx)) h.2.2 fun _ e => by cases e
  · have := hk.env x hx
    rw [Frame.find, Frame.find, ho, hs.own]
    exact this
  · have := hk.env x hx
    rw [Frame.program, Frame.program, ho, hs.own]
    exact this
  · have hmem : (q, Fn.user d body) ∈ s.fns := lookup_entry_mem e
    obtain ⟨h1, h2⟩ := hs.fns _ hmem d body rfl
    obtain ⟨g1, g2, g3⟩ := h.1 _ h2
    exact ⟨h1, g1, g2, g3⟩

theorem run_result_outs {R : Rules} {n : ℕ} {b : Block} {w v : World} {x : Except Err (State × Option Obj)} (h : runB R (runCall R n) b (begin_ R) w.bare = (x, v)) :
    (run R n b w).1 = x.map fun _ => v.outs := by
  rw [run_begin]
  change (match runB R (runCall R n) b (begin_ R) w.bare with
    | (.error e, v) => ((.error e, v) : Except Err Outs × World)
    | (.ok _, v) => (.ok v.outs, v)).1 = _
  rw [h]
  cases x <;> rfl

theorem run_ok {R : Rules} {n : ℕ} {b : Block} (hr : noResultB b = true) {w : World} {o : Outs} (h : (run R n b w).1 = .ok o) :
    ∃ s v, runB R (runCall R n) b (begin_ R) w.bare = (.ok (s, none), v) ∧ v.outs = o := by
  rcases hx : runB R (runCall R n) b (begin_ R) w.bare with ⟨x, v⟩
  rw [run_result_outs hx] at h
  have hk := kept_B (R := R) (call := runCall R n) b (begin_ R) hr w.bare
  rw [hx] at hk
  rcases x with e | ⟨s, r⟩
  · cases h
  · cases h
    have := (hk _ rfl).none
    dsimp only at this
    subst this
    exact ⟨s, v, rfl, rfl⟩

theorem runB_after {R : Rules} {n : ℕ} {b c : Block} {s t : State} {w v : World} (h : runB R (runCall R n) b s w = (.ok (t, none), v)) :
    runB R (runCall R n) (follow b c) s w = runB R (runCall R n) c t v := by
  rw [runB_follow, M.bind_apply, h]

theorem noResultB_joint {b c : Block} (hb : noResultB b = true) (hc : noResultB c = true) : noResultB (follow b c) = true := by
  match b with
  | .nil => exact hc
  | .cons s b =>
    rw [noResultB, Bool.and_eq_true] at hb
    rw [follow, noResultB, Bool.and_eq_true]
    exact ⟨hb.1, noResultB_joint hb.2 hc⟩

/-- A program that begins with another. -/
theorem run_prefix {R : Rules} {n : ℕ} {a m : Block} (ha : noResultB a = true) (hm : noResultB m = true) {w : World} {o : Outs}
    (h : (run R n (follow a m) w).1 = .ok o) : ∃ s v t, runB R (runCall R n) a (begin_ R) w.bare = (.ok (s, none), v) ∧
      runB R (runCall R n) m s v = (.ok (t, none), (runB R (runCall R n) m s v).2) ∧ (runB R (runCall R n) m s v).2.outs = o := by
  obtain ⟨t, u, h1, h2⟩ := run_ok (noResultB_joint ha hm) h
  rcases hx : runB R (runCall R n) a (begin_ R) w.bare with ⟨x, v⟩
  have hk := kept_B (R := R) (call := runCall R n) a (begin_ R) ha w.bare
  rw [hx] at hk
  rcases x with e | ⟨s, r⟩
  · rw [runB_follow, M.bind_apply, hx] at h1
    cases h1
  · have := (hk _ rfl).none
    dsimp only at this
    subst this
    rw [runB_after hx] at h1
    exact ⟨s, v, t, rfl, by rw [h1], by rw [h1]; exact h2⟩

theorem Both.result {α : Type} {P : α → α → Prop} {m m' : M α} (h : Both P m m') {w v : World} {r : Except Err α} (e : m w = (r, v)) :
    ∃ r', m' w = (r', v) ∧ ((∃ x, r = .error x ∧ r' = .error x) ∨ ∃ a a', r = .ok a ∧ r' = .ok a' ∧ P a a') := by
  obtain ⟨h1, h2, h3⟩ := h w
  rw [e] at h1 h2 h3
  refine ⟨(m' w).1, Prod.ext rfl h1, ?_⟩
  cases r with
  | error x => exact .inl ⟨x, rfl, h2 x rfl⟩
  | ok a =>
    obtain ⟨a', g1, g2⟩ := h3 a rfl
    exact .inr ⟨a, a', rfl, g1, g2⟩

/-- A part that is not needed only adds its outputs. -/
theorem insert_run {R : Rules} {n : ℕ} {z : Bool} {a m c : Block} (hra : noResultB a = true) (hrm : noResultB m = true) (hq : QuietFunctions a)
    (ha : LeavesZeros a) (hm : SetsNothing m) (hc : LeavesZeros c) (hu : Unneeded a m c) {w : World} (hw : MemoPure z w) {o p : Outs}
    (h1 : (run R n a w).1 = .ok o) (h2 : (run R n (follow a m) w).1 = .ok (o ++ p)) :
    ∃ r : Except Err Outs, (run R n (follow a c) w).1 = r.map (o ++ ·) ∧ (run R n (follow a (follow m c)) w).1 = r.map (o ++ p ++ ·) := by
  obtain ⟨s, v, e1, rfl⟩ := run_ok hra h1
  obtain ⟨s', v', t, e1', e2, e3⟩ := run_prefix hra hrm h2
  rw [e1] at e1'
  cases e1'
  have hwb : MemoPure z w.bare := hw
  have hs : Fit z (functionsB a) s := fit_after hra ha hq (fun _ h => h) (fit_begin R z _) w.bare (s, none) (by rw [e1])
  have hv : MemoPure z v := by
    have := ((replays_B (R := R) (replays_call (R := R) n) a ha _ (fit_begin R z []).replay).1 w.bare w.bare [] ⟨Alike.refl _, rfl, hwb, hwb⟩).2.left
    rwa [e1] at this
  have hk : Kept (assignsB m) (definesB m) s (t, none) := kept_B m s hrm v _ (by rw [e2])
  have hE := equal_after (R := R) (n := n) hm hs hv (r := (t, none)) (by rw [e2])
  generalize (runB R (runCall R n) m s v).2 = u at e2 e3 hE
  obtain ⟨r, q, v1, u1, _, f1, f2⟩ := equal_part (R := R) (n := n) hc hs hE
  obtain ⟨r', f3, f4⟩ := (near_unneeded (n := n) (R := R) hu hs hk).result f2
  refine ⟨r.map fun _ => q, ?_, ?_⟩
  · rw [run_result_outs (by rw [runB_after e1, f1])]
    cases r <;> rfl
  · rw [run_result_outs (by rw [runB_after e1, runB_after e2, f3])]
    rcases f4 with ⟨x, rfl, rfl⟩ | ⟨b, b', rfl, rfl, _⟩
    · rfl
    · rw [← e3]
      rfl

theorem Fit.mono {z : Bool} {ds ds' : List (List DefPart × Block)} {s : State} (h : Fit z ds s) (hd : ∀ p ∈ ds, p ∈ ds') : Fit z ds' s :=
  ⟨h.own, h.tidy, h.replay, h.onward, fun p hp d body e => (h.fns p hp d body e).imp id (hd _)⟩

/-- The state after a part without results that sets nothing. -/
theorem fit_sets {R : Rules} {n : ℕ} {z : Bool} {ds : List (List DefPart × Block)} {b : Block} (hr : noResultB b = true) (hb : SetsNothing b)
    (hd : ∀ p ∈ functionsB b, p ∈ ds) {s : State} (hs : Fit z ds s) : Leads (fun r => Fit z ds r.1) (runB R (runCall R n) b s) := by
  intro w r h
  refine ⟨(kept_B b s hr w r h).own.trans hs.own, (tidy_B (tidy_call (R := R) n) b hb s hs.tidy).2 w r h,
    (replays_B (replays_call (R := R) n) b hb.leaves s hs.replay).2 w r h, (onward_B (onward_call (R := R) n) b s hs.onward).2 w r h, ?_⟩
  refine functions_B (Q := From ds) b (fun p hp d body e => ?_) s hs.fns w r h
  cases e
  exact ⟨rfl, hd p hp⟩

/-- In states with the same variables and functions a program does the same. -/
theorem near_same {R : Rules} {n : ℕ} {z : Bool} {ds : List (List DefPart × Block)} (c : Block) {s t : State} (hs : Fit z ds s) (ho : t.fr.own = none)
    (henv : ∀ x, t.fr.env.lookup x = s.fr.env.lookup x) (hfns : ∀ q, t.fns.lookup q = s.fns.lookup q) :
    Both (NearRes R none (fun _ => True) (fun _ => True) fun _ => True) (runB R (runCall R n) c s) (runB R (runCall R n) c t) := by
  refine near_B (callNear R n) c ⟨⟨fun _ => rfl, hs.own, ho, fun _ h => h, fun x _ => ?_, fun x _ => ?_⟩, fun q _ => ⟨hfns q, fun d body e => ?_⟩⟩
    (fun _ _ => trivial) (fun _ _ => trivial) (fun _ _ => trivial) fun _ e => by cases e
  · rw [Frame.find, Frame.find, ho, hs.own]
    exact henv x
  · rw [Frame.program, Frame.program, ho, hs.own]
    exact henv x
  · exact ⟨(hs.fns _ (lookup_entry_mem e) d body rfl).1, fun _ _ => .inl trivial, fun _ _ => trivial, fun _ _ => trivial⟩

/-- One of two parts after the other: what it leaves. -/
theorem second_part {R : Rules} {n : ℕ} {z : Bool} {a m m' : Block} (hu : Unneeded a m m') (hm : SetsNothing m) (hm' : SetsNothing m')
    (hr : noResultB m = true) (hr' : noResultB m' = true) {s t t' : State} {v u u' : World} (hs : Fit z (functionsB a) s) (hv : MemoPure z v)
    (e : runB R (runCall R n) m s v = (.ok (t, none), u)) (e' : runB R (runCall R n) m' s v = (.ok (t', none), u')) {p' : Outs}
    (hp : u'.outs = v.outs ++ p') : ∃ tt x, runB R (runCall R n) m' t u = (.ok (tt, none), x) ∧ x.outs = u.outs ++ p' ∧ Equal z v x ∧
      (∀ y, y ∉ assignsB m → tt.fr.env.lookup y = t'.fr.env.lookup y) ∧ ∀ q, q ∉ definesB m → tt.fns.lookup q = t'.fns.lookup q := by
  have hE : Equal z v u := by
    have := equal_after (R := R) (n := n) hm hs hv (r := (t, none)) (by rw [e])
    rwa [e] at this
  have hE' : Equal z v u' := by
    have := equal_after (R := R) (n := n) hm' hs hv (r := (t', none)) (by rw [e'])
    rwa [e'] at this
  have hk : Kept (assignsB m) (definesB m) s (t, none) := kept_B m s hr v _ (by rw [e])
  obtain ⟨r, q, v1, u1, hEq, f1, f2⟩ := equal_part (R := R) (n := n) hm'.leaves hs hE
  rw [e'] at f1
  obtain ⟨g1, g2⟩ := Prod.mk.inj f1
  subst g1
  have hq : q = p' := by
    rw [g2] at hp
    exact List.append_cancel_left hp
  subst hq
  obtain ⟨r', f3, f4⟩ := (near_unneeded (n := n) (R := R) hu hs hk).result f2
  rcases f4 with ⟨x, hx, _⟩ | ⟨b, b', hb, hb', hnone, hnear, hf⟩
  · cases hx
  · cases hb
    subst hb'
    rcases b' with ⟨tt, y⟩
    dsimp only at hnone
    subst hnone
    refine ⟨tt, _, f3, rfl, ?_, fun y hy => ?_, fun q hq => (hf q hq).1⟩
    · have h1 : Equal z u' { u1 with outs := u.outs ++ q } := by
        rw [g2]
        exact ⟨hEq.settings, hEq.left, hEq.right⟩
      exact hE'.trans h1
    · have := hnear.find y hy
      rwa [Frame.find, Frame.find, hnear.own, hnear.own'] at this

/-- Two parts that have nothing to do with each other can be exchanged. -/
theorem exchange_run {R : Rules} {n : ℕ} {z : Bool} {a m m' c : Block} (hra : noResultB a = true) (hrm : noResultB m = true)
    (hrm' : noResultB m' = true) (hq : QuietFunctions a) (ha : LeavesZeros a) (hm : SetsNothing m) (hm' : SetsNothing m') (hc : LeavesZeros c)
    (hu : Apart a m m') {w : World} (hw : MemoPure z w) {o p p' : Outs} (h1 : (run R n a w).1 = .ok o)
    (h2 : (run R n (follow a m) w).1 = .ok (o ++ p)) (h3 : (run R n (follow a m') w).1 = .ok (o ++ p')) :
    ∃ r : Except Err Outs, (run R n (follow a (follow m (follow m' c))) w).1 = r.map (o ++ p ++ p' ++ ·) ∧
      (run R n (follow a (follow m' (follow m c))) w).1 = r.map (o ++ p' ++ p ++ ·) := by
  obtain ⟨s, v, e1, rfl⟩ := run_ok hra h1
  obtain ⟨s', v', t, e1', e2, o2⟩ := run_prefix hra hrm h2
  rw [e1] at e1'
  cases e1'
  obtain ⟨s', v', t', e1', e3, o3⟩ := run_prefix hra hrm' h3
  rw [e1] at e1'
  cases e1'
  have hwb : MemoPure z w.bare := hw
  have hs : Fit z (functionsB a) s := fit_after hra ha hq (fun _ h => h) (fit_begin R z _) w.bare (s, none) (by rw [e1])
  have hv : MemoPure z v := by
    have := ((replays_B (R := R) (replays_call (R := R) n) a ha _ (fit_begin R z []).replay).1 w.bare w.bare [] ⟨Alike.refl _, rfl, hwb, hwb⟩).2.left
    rwa [e1] at this
  generalize (runB R (runCall R n) m s v).2 = u at e2 o2
  generalize (runB R (runCall R n) m' s v).2 = u' at e3 o3
  obtain ⟨tt, x, f1, f2, f3, f4, f5⟩ := second_part hu.left hm hm' hrm hrm' hs hv e2 e3 o3
  obtain ⟨tt', x', g1, g2, g3, g4, g5⟩ := second_part hu.right hm' hm hrm' hrm hs hv e3 e2 o2
  have k1 : Kept (assignsB m') (definesB m') t (tt, none) := kept_B m' t hrm' u _ (by rw [f1])
  have k2 : Kept (assignsB m) (definesB m) t' (tt', none) := kept_B m t' hrm u' _ (by rw [g1])
  have hl : ∀ p ∈ functionsB m, p ∈ functionsB a ++ (functionsB m ++ functionsB m') :=
    fun p hp => List.mem_append_right _ (List.mem_append_left _ hp)
  have hl' : ∀ p ∈ functionsB m', p ∈ functionsB a ++ (functionsB m ++ functionsB m') :=
    fun p hp => List.mem_append_right _ (List.mem_append_right _ hp)
  have hst : Fit z (functionsB a ++ (functionsB m ++ functionsB m')) s := hs.mono fun p hp => List.mem_append_left _ hp
  have hft := fit_sets hrm hm hl hst v (t, none) (by rw [e2])
  have hftt := fit_sets hrm' hm' hl' hft u (tt, none) (by rw [f1])
  have hown : tt'.fr.own = none := k2.own.trans ((kept_B (R := R) (call := runCall R n) m' s hrm' v (t', none) (by rw [e3])).own.trans hs.own)
  have both := near_same (R := R) (n := n) c hftt hown (fun y => ?_) fun q => ?_
  rotate_left
  · by_cases hy : y ∈ assignsB m
    · exact (g4 y (hu.vars y hy)).trans (k1.env y (hu.vars y hy)).symm
    · exact (k2.env y hy).trans (f4 y hy).symm
  · by_cases hy : q ∈ definesB m
    · exact (g5 q (hu.fns q hy)).trans (k1.fns q (hu.fns q hy)).symm
    · exact (k2.fns q hy).trans (f5 q hy).symm
  obtain ⟨r, q, x1, x2, _, i1, i2⟩ := equal_part (R := R) (n := n) hc hftt (f3.symm.trans g3)
  obtain ⟨r', i3, i4⟩ := both.result i2
  refine ⟨r.map fun _ => q, ?_, ?_⟩
  · rw [run_result_outs (by rw [runB_after e1, runB_after e2, runB_after f1, i1])]
    dsimp only
    rw [f2, o2]
    cases r <;> rfl
  · rw [run_result_outs (by rw [runB_after e1, runB_after e3, runB_after g1, i3])]
    dsimp only
    rw [g2, o3]
    rcases i4 with ⟨x, rfl, rfl⟩ | ⟨b, b', rfl, rfl, _⟩ <;> rfl

end PythonDice
