import Verif.Proofs.NaiveRoll

/-! Calls of casting functions against calls for every choice of the arguments. -/

namespace PythonDice
open Spec
open Spec.Naive (Law Val mean sure push andThen uniform draws support nothing random convert choices allChoices outcomes mixed callAll)

namespace Enum

/-- Results of functions. -/
def RepO : Option Obj → Option Val → Prop
  | none, none => True
  | some o, some v => Rep o v
  | _, _ => False

theorem RepO.getD {o : Option Obj} {v : Option Val} (h : RepO o v) : Rep (o.getD (.blank false)) (v.getD (.blank false)) := by
  cases o <;> cases v <;> first | exact absurd h id | exact h | rfl

/-- Arguments with the types of the parameters. -/
def RepA (a : Option Ty × Obj) (b : Option Ty × Val) : Prop := a.1 = b.1 ∧ Rep a.2 b.2

theorem any_congr {α β : Type} {R : α → β → Prop} {p : α → Bool} {q : β → Bool} (h : ∀ a b, R a b → p a = q b) {l : List α} {m : List β}
    (hl : List.Forall₂ R l m) : l.any p = m.any q := by
  induction hl with
  | nil => rfl
  | cons hd _ ih => rw [List.any_cons, List.any_cons, h _ _ hd, ih]

theorem aborts_nothing {a : Option Ty × Obj} {b : Option Ty × Val} (h : RepA a b) : castAborts a = nothing b := by
  obtain ⟨t, o⟩ := a
  obtain ⟨t', v⟩ := b
  obtain ⟨h1, h2⟩ := h
  simp only at h1
  subst h1
  rcases t with _ | t
  · rfl
  · cases t <;> cases o <;> cases v <;> first | rfl | exact absurd h2 id

theorem hard_random {a : Option Ty × Obj} {b : Option Ty × Val} (h : RepA a b) : (slotOf a).isHard = random b := by
  obtain ⟨t, o⟩ := a
  obtain ⟨t', v⟩ := b
  obtain ⟨h1, h2⟩ := h
  simp only at h1
  subst h1
  rcases t with _ | t
  · rfl
  · cases t <;> cases o <;> cases v <;> first | rfl | exact absurd h2 id

theorem argOk_rep {a : Option Ty × Obj} {b : Option Ty × Val} (h : RepA a b) (hc : (choices b).isSome) : ArgOk a := by
  obtain ⟨t, o⟩ := a
  obtain ⟨t', v⟩ := b
  obtain ⟨h1, h2⟩ := h
  simp only at h1
  subst h1
  rcases t with _ | t
  · trivial
  · cases t <;> cases o <;> try trivial
    · cases v <;> first | exact absurd h2 id | exact h2.1.proper
    · cases v <;> first | exact absurd h2 id | skip
      rename_i l p
      cases p with
      | none => simp [choices] at hc
      | some kb => exact (h2.2 kb.1 kb.2 rfl).2.proper

theorem seqDie_rep (s : List ℤ) : DieRep (seqDie s) (if s = [] then sure 0 else uniform s) := by
  split
  · rename_i h
    subst h
    have e : seqDie [] = ⟨[0], [1], none⟩ := by
      have h := fromSeq_seqDie {} []
      have h2 : RV.fromSeq {} ([] : List ℤ) = .ok ⟨[0], [1], none⟩ := by
        unfold RV.fromSeq; exact fromConst_eq {} 0
      rw [h2] at h; cases h; rfl
    rw [e]
    exact DieRep.const _ _
  · rename_i h
    exact (fromSeq_rep h (fromSeq_seqDie {} s)).1

theorem convert_rep {a : Option Ty × Obj} {b : Option Ty × Val} (h : RepA a b) : Rep (argValue a) (convert b) := by
  obtain ⟨t, o⟩ := a
  obtain ⟨t', v⟩ := b
  obtain ⟨h1, h2⟩ := h
  simp only at h1
  subst h1
  rcases t with _ | t
  · cases o <;> cases v <;> first | exact absurd h2 id | exact h2
  · cases t <;> cases o <;> cases v <;> first | exact absurd h2 id | exact h2 | skip
    · cases h2; rfl
    · cases h2; rfl
    · cases h2; exact Rep.one (DieRep.const _ _) rfl
    · cases h2; exact Rep.one (seqDie_rep _) (seqDie_proper _).2.2

/-- The value of an argument, given the object of a combination. -/
def rebuild1 : Option Ty × Val → Obj → Val
  | (some .N, .die _ _), .num n => .num n
  | (some .S, .die _ _), .seq s => .seq s
  | a, _ => convert a

/-- The values of the arguments. -/
def rebuild : List (Option Ty × Val) → List Obj → List Val
  | b :: bs, o :: os => rebuild1 b o :: rebuild bs os
  | _, _ => []

theorem slot_rep {a : Option Ty × Obj} {b : Option Ty × Val} (h : RepA a b) {c : List (Val × ℚ)} (hc : choices b = some c) :
    (∀ x ∈ (slotOf a).choices, Rep x.1 (rebuild1 b x.1) ∧ rebuild1 b x.1 ∈ c.map Prod.fst) ∧
    (∀ v ∈ c.map Prod.fst, ∃ x ∈ (slotOf a).choices, rebuild1 b x.1 = v) ∧ Pos c ∧
    ∀ Φ : Val → ℚ, argLaw a (fun o => Φ (rebuild1 b o)) = mean c Φ := by
  have hcv := convert_rep h
  obtain ⟨t, o⟩ := a
  obtain ⟨t', v⟩ := b
  obtain ⟨h1, h2⟩ := h
  simp only at h1
  subst h1
  have easy : ∀ (o' : Obj), slotOf (t, o) = .easy o' → argValue (t, o) = o' → choices (t, v) = some (sure (convert (t, v))) →
      (∀ o, rebuild1 (t, v) o = convert (t, v)) → (∀ g, argLaw (t, o) g = g o') →
      (∀ x ∈ (slotOf (t, o)).choices, Rep x.1 (rebuild1 (t, v) x.1) ∧ rebuild1 (t, v) x.1 ∈ c.map Prod.fst) ∧
      (∀ u ∈ c.map Prod.fst, ∃ x ∈ (slotOf (t, o)).choices, rebuild1 (t, v) x.1 = u) ∧ Pos c ∧
      ∀ Φ : Val → ℚ, argLaw (t, o) (fun o => Φ (rebuild1 (t, v) o)) = mean c Φ := by
    intro o' e1 e2 e3 e4 e5
    rw [hc] at e3
    cases e3
    rw [e2] at hcv
    refine ⟨fun x hx => ?_, fun u hu => ?_, pos_sure _, fun Φ => ?_⟩
    · rw [e1] at hx
      simp only [Slot.choices, List.mem_singleton] at hx
      subst hx
      rw [e4]
      exact ⟨hcv, by simp [sure]⟩
    · simp only [sure, List.map_cons, List.map_nil, List.mem_singleton] at hu
      subst hu
      exact ⟨(o', 1), by rw [e1]; simp [Slot.choices], e4 _⟩
    · rw [e5, e4, mean_sure]
  rcases t with _ | t
  · exact easy o rfl rfl rfl (fun _ => by cases v <;> rfl) (fun g => by cases o <;> rfl)
  · cases t <;> cases o <;> cases v <;> first | exact absurd h2 id | exact easy _ rfl rfl rfl (fun _ => rfl) (fun _ => rfl) | skip
    · rename_i r l p
      simp only [choices, Option.some.injEq] at hc
      subst hc
      refine ⟨fun x hx => ?_, fun u hu => ?_, h2.1.pos.push _, fun Φ => ?_⟩
      · obtain ⟨vp, hvp, rfl⟩ := List.mem_map.1 hx
        exact ⟨rfl, mem_fst_push.2 ⟨vp.1, (h2.1.mem_vals _).1 (RV.mem_vals_of_pairs hvp), rfl⟩⟩
      · obtain ⟨n, hn, rfl⟩ := mem_fst_push.1 hu
        rw [← h2.1.mem_vals, ← RV.pairs_map_fst r h2.1.proper.len] at hn
        obtain ⟨vp, hvp, rfl⟩ := List.mem_map.1 hn
        exact ⟨_, List.mem_map.2 ⟨vp, hvp, rfl⟩, rfl⟩
      · rw [mean_push, ← h2.1.law]; rfl
    · rename_i r l p
      cases p with
      | none => simp [choices] at hc
      | some kb =>
        obtain ⟨k, b⟩ := kb
        obtain ⟨hk, hb⟩ := h2.2 k b rfl
        simp only [choices, Option.some.injEq] at hc
        subst hc
        have henum := C14_enumeration r r.source.2 r.source.1 rfl hb.proper
        refine ⟨fun x hx => ?_, fun u hu => ?_, (hb.pos.draws _).push _, fun Φ => ?_⟩
        · obtain ⟨vp, hvp, rfl⟩ := List.mem_map.1 hx
          obtain ⟨e1, e2, e3⟩ := (henum.2 vp.1).1 (List.mem_map_of_mem hvp)
          refine ⟨rfl, mem_fst_push.2 ⟨vp.1, mem_fst_draws.2 ⟨by rw [e1, hk], fun z hz => (hb.mem_vals z).1 (e3 z hz)⟩, ?_⟩⟩
          change Val.seq (descending vp.1) = Val.seq vp.1
          rw [descending, e2.insertionSort_eq]
        · obtain ⟨xs, hxs, rfl⟩ := mem_fst_push.1 hu
          obtain ⟨e1, e2⟩ := mem_fst_draws.1 hxs
          have hperm : (descending xs).Perm xs := List.perm_insertionSort _ _
          have : descending xs ∈ r.expandedRolls.map (·.1) := (henum.2 _).2
            ⟨by rw [hperm.length_eq, e1, hk], List.pairwise_insertionSort _ _, fun z hz => (hb.mem_vals z).2 (e2 z (hperm.mem_iff.1 hz))⟩
          obtain ⟨vp, hvp, e⟩ := List.mem_map.1 this
          exact ⟨_, List.mem_map.2 ⟨vp, hvp, rfl⟩, by rw [← e]; rfl⟩
        · rw [mean_push, ← hb.draws, ← hk]; rfl

theorem args_rep {args : List (Option Ty × Obj)} {vals : List (Option Ty × Val)} (h : List.Forall₂ RepA args vals)
    {cs : List (List Val × ℚ)} (hc : allChoices vals = some cs) :
    (∀ a ∈ args, ArgOk a) ∧
    (∀ x ∈ combos (args.map slotOf), List.Forall₂ Rep x.1 (rebuild vals x.1) ∧ rebuild vals x.1 ∈ cs.map Prod.fst) ∧
    (∀ vs ∈ cs.map Prod.fst, ∃ x ∈ combos (args.map slotOf), rebuild vals x.1 = vs) ∧ Pos cs ∧
    ∀ Φ : List Val → ℚ, argsLaw args (fun os => Φ (rebuild vals os)) = mean cs Φ := by
  induction h generalizing cs with
  | nil =>
    simp only [allChoices, Option.some.injEq] at hc
    subst hc
    refine ⟨by simp, ?_, ?_, pos_sure _, fun Φ => by rw [mean_sure]; rfl⟩
    · intro x hx
      simp only [List.map_nil, combos, List.mem_singleton] at hx
      subst hx
      exact ⟨.nil, by simp [sure, rebuild]⟩
    · intro vs hvs
      simp only [sure, List.map_cons, List.map_nil, List.mem_singleton] at hvs
      subst hvs
      exact ⟨([], 1), by simp [combos], rfl⟩
  | @cons a b as bs hd _ ih =>
    simp only [allChoices, Option.bind_eq_bind, Option.bind_eq_some_iff, Option.some.injEq] at hc
    obtain ⟨c, hc, cs', hcs', rfl⟩ := hc
    obtain ⟨i0, i1, i2, i3, i4⟩ := ih hcs'
    obtain ⟨s1, s2, s3, s4⟩ := slot_rep hd hc
    refine ⟨?_, ?_, ?_, s3.andThen fun _ _ => i3.push _, fun Φ => ?_⟩
    · intro x hx
      rcases List.mem_cons.1 hx with rfl | hx
      · exact argOk_rep hd (by rw [hc]; rfl)
      · exact i0 x hx
    · intro x hx
      simp only [List.map_cons, combos, List.mem_flatMap, List.mem_map] at hx
      obtain ⟨op, hop, y, hy, rfl⟩ := hx
      obtain ⟨p1, p2⟩ := s1 op hop
      obtain ⟨q1, q2⟩ := i1 y hy
      exact ⟨.cons p1 q1, mem_fst_andThen.2 ⟨_, p2, mem_fst_push.2 ⟨_, q2, rfl⟩⟩⟩
    · intro vs hvs
      obtain ⟨u, hu, hvs⟩ := mem_fst_andThen.1 hvs
      obtain ⟨us, hus, rfl⟩ := mem_fst_push.1 hvs
      obtain ⟨op, hop, rfl⟩ := s2 u hu
      obtain ⟨y, hy, rfl⟩ := i2 us hus
      refine ⟨(op.1 :: y.1, op.2 * y.2), ?_, rfl⟩
      simp only [List.map_cons, combos, List.mem_flatMap, List.mem_map]
      exact ⟨op, hop, y, hy, rfl⟩
    · rw [argsLaw, mean_andThen, ← s4]
      congr 1
      funext o
      rw [mean_push, ← i4]
      rfl

/-! ## Results -/

/-- The law of a result. -/
def valLaw : Option Val → Option ((ℤ → ℚ) → ℚ)
  | some (.num n) => some fun g => g n
  | some (.seq s) => some fun g => g s.sum
  | some (.die l _) => some (mean l)
  | some (.blank _) => none
  | none => none

theorem RepO.resLaw {o : Option Obj} {v : Option Val} (h : RepO o v) : resLaw o = valLaw v ∧ ResOk o := by
  cases o with
  | none => cases v <;> first | exact absurd h id | exact ⟨rfl, trivial⟩
  | some o =>
    cases v with
    | none => exact absurd h id
    | some v =>
      cases o <;> cases v <;> first | exact absurd h id | skip
      · cases h; exact ⟨rfl, trivial⟩
      · cases h; exact ⟨rfl, trivial⟩
      · exact ⟨congrArg some (funext h.1.law), h.1.proper⟩
      · exact ⟨rfl, trivial⟩

theorem valLaw_mean (v : Option Val) (f : ℤ → ℚ) : (match valLaw v with | some K => K f | none => 0) = mean (outcomes v) f := by
  cases v with
  | none => rfl
  | some v => cases v <;> simp [valLaw, outcomes]

theorem RepO.total {o : Option Obj} {v : Option Val} (h : RepO o v) : (if (valLaw v).isSome then 1 else 0) = mean (outcomes v) fun _ => 1 := by
  cases o with
  | none => cases v <;> first | exact absurd h id | rfl
  | some o =>
    cases v with
    | none => exact absurd h id
    | some v =>
      cases o <;> cases v <;> first | exact absurd h id | skip
      · simp [valLaw, outcomes]
      · simp [valLaw, outcomes]
      · simp [valLaw, outcomes, h.1.total]
      · rfl

theorem RepO.pos {o : Option Obj} {v : Option Val} (h : RepO o v) : Pos (outcomes v) := by
  have hnil : Pos ([] : Law) := by intro x hx; cases hx
  cases o with
  | none => cases v <;> first | exact absurd h id | exact hnil
  | some o =>
    cases v with
    | none => exact absurd h id
    | some v =>
      cases o <;> cases v <;> first | exact absurd h id | exact pos_sure _ | exact h.1.pos | exact hnil

theorem RepO.entry {o : Option Obj} {v : Option Val} (h : RepO o v) {z : ℤ} (hz : z ∈ entryVals (resultEntry o)) :
    z ∈ (outcomes v).map Prod.fst := by
  cases o with
  | none => cases hz
  | some o =>
    cases v with
    | none => exact absurd h id
    | some v =>
      cases o <;> cases v <;> first | exact absurd h id | skip
      · cases h; simpa [entryVals, resultEntry, outcomes, sure] using hz
      · cases h; simpa [entryVals, resultEntry, outcomes, sure] using hz
      · exact (h.1.mem_vals z).1 hz
      · cases hz

theorem RepO.blank {o : Option Obj} {v : Option Val} (h : RepO o v) (hv : outcomes v = []) : resultEntry o = .blank := by
  cases o with
  | none => rfl
  | some o =>
    cases v with
    | none => exact absurd h id
    | some v =>
      cases o <;> cases v <;> first | exact absurd h id | rfl | skip
      · simp [outcomes, sure] at hv
      · simp [outcomes, sure] at hv
      · exact absurd hv h.1.ne_nil

theorem callAll_some {f : List Val → Option (Option Val)} {cs : List (List Val × ℚ)} {rs : List (Option Val × ℚ)}
    (h : callAll f cs = some rs) : rs = push (fun vs => (f vs).getD none) cs ∧ ∀ vs ∈ cs.map Prod.fst, f vs = some ((f vs).getD none) := by
  induction cs generalizing rs with
  | nil => cases h; exact ⟨rfl, by simp⟩
  | cons c cs ih =>
    simp only [callAll, Option.bind_eq_bind, Option.bind_eq_some_iff, Option.some.injEq] at h
    obtain ⟨r, hr, rs', hrs', rfl⟩ := h
    obtain ⟨e1, e2⟩ := ih hrs'
    subst e1
    refine ⟨by simp [push, hr], ?_⟩
    intro vs hvs
    rcases List.mem_cons.1 hvs with rfl | hvs
    · rw [hr]; rfl
    · exact e2 vs hvs

/-- One call in the loop. -/
def StepRep (G : List Obj → Option Val) (c : List Obj × ℕ) (y : RV.Entry ℤ × ℕ) : Prop :=
  y.2 = c.2 ∧ ∃ o, y.1 = resultEntry o ∧ RepO o (G c.1)

theorem forall₂_left {α β : Type} {R : α → β → Prop} {l : List α} {m : List β} (h : List.Forall₂ R l m) {a : α} (ha : a ∈ l) :
    ∃ b ∈ m, R a b := by
  induction h with
  | nil => cases ha
  | cons hd _ ih =>
    rcases List.mem_cons.1 ha with rfl | ha
    · exact ⟨_, List.mem_cons_self, hd⟩
    · obtain ⟨b, hb, hr⟩ := ih ha
      exact ⟨b, List.mem_cons_of_mem _ hb, hr⟩

theorem forall₂_right {α β : Type} {R : α → β → Prop} {l : List α} {m : List β} (h : List.Forall₂ R l m) {b : β} (hb : b ∈ m) :
    ∃ a ∈ l, R a b := by
  induction h with
  | nil => cases hb
  | cons hd _ ih =>
    rcases List.mem_cons.1 hb with rfl | hb
    · exact ⟨_, List.mem_cons_self, hd⟩
    · obtain ⟨a, ha, hr⟩ := ih hb
      exact ⟨a, List.mem_cons_of_mem _ ha, hr⟩

theorem wsum_congr' {α : Type} {l : List (α × ℕ)} {f g : α → ℚ} (h : ∀ x ∈ l, f x.1 = g x.1) : wsum l f = wsum l g := by
  unfold wsum
  congr 1
  exact List.map_congr_left fun x hx => by rw [h x hx]

theorem mix_rep0 {args : List (Option Ty × Obj)} {vals : List (Option Ty × Val)} (h : List.Forall₂ RepA args vals)
    {cs : List (List Val × ℚ)} (hc : allChoices vals = some cs) {G : List Val → Option Val} {ys : List (RV.Entry ℤ × ℕ)}
    (hys : List.Forall₂ (StepRep fun os => G (rebuild vals os)) (combos (args.map slotOf)) ys) {st : Settings} {x : Option (RV ℤ)}
    (hx : RV.fromRvs0 st (ys.map fun x => x.1) (some (ys.map fun x => (x.2 : ℤ))) = .ok x) :
    Rep (objOfRV x) (mixed (push G cs)) := by
  obtain ⟨hok, hC, hcs, hpos, hlaw⟩ := args_rep h hc
  set C := combos (args.map slotOf) with hCdef
  set l := andThen (push G cs) outcomes with hl
  have hG : ∀ vs ∈ cs.map Prod.fst, ∃ o, RepO o (G vs) := by
    intro vs hvs
    obtain ⟨c, hc, rfl⟩ := hcs vs hvs
    obtain ⟨y, _, _, o, _, ho⟩ := forall₂_left hys hc
    exact ⟨o, ho⟩
  have hlp : Pos l := by
    refine (hpos.push G).andThen fun r hr => ?_
    obtain ⟨c, hc, rfl⟩ := List.mem_map.1 hr
    obtain ⟨o, ho⟩ := hG c.1 (List.mem_map_of_mem hc)
    exact ho.pos
  have hlm : ∀ f, mean l f = mean cs fun vs => mean (outcomes (G vs)) f := by
    intro f; rw [hl, mean_andThen, mean_push]
  have hmass := args_mass hok
  have hstep : List.Forall₂ (StepOk fun os => valLaw (G (rebuild vals os))) C ys :=
    hys.imp fun c y ⟨h1, o, h2, h3⟩ => ⟨h1, o, h2, h3.resLaw.1, h3.resLaw.2⟩
  have hsum : ∀ f, wsum C (fun os => match valLaw (G (rebuild vals os)) with | some K => K f | none => 0) = mass C * mean l f := by
    intro f
    rw [wsum_eq_Ex hmass, args_Ex hok, hlm, ← hlaw]
    congr 2
    funext os
    exact valLaw_mean _ f
  have htot : wsum C (fun os => if (valLaw (G (rebuild vals os))).isSome then 1 else 0) = mass C * mean l fun _ => 1 := by
    rw [wsum_congr' (g := fun os => mean (outcomes (G (rebuild vals os))) fun _ => 1), wsum_eq_Ex hmass, args_Ex hok, hlm, ← hlaw]
    intro c hc
    obtain ⟨o, ho⟩ := hG _ (hC c hc).2
    exact ho.total
  by_cases hnil : l = []
  · have : mixed (push G cs) = .blank false := by
      unfold mixed
      rw [← hl, if_pos hnil]
    rw [this]
    have hb : ∀ e ∈ ys.map fun x => x.1, e = .blank := by
      intro e he
      obtain ⟨y, hy, rfl⟩ := List.mem_map.1 he
      obtain ⟨c, hc, _, o, h2, ho⟩ := forall₂_right hys hy
      rw [h2]
      refine ho.blank ?_
      cases hout : outcomes (G (rebuild vals c.1)) with
      | nil => rfl
      | cons z zs =>
        exfalso
        obtain ⟨c', hc', e'⟩ := List.mem_map.1 (hC c hc).2
        have : (z.1, c'.2 * z.2) ∈ l := by
          rw [hl, mem_andThen]
          exact ⟨(G c'.1, c'.2), List.mem_map.2 ⟨c', hc', rfl⟩, z, by rw [e', hout]; exact List.mem_cons_self, rfl⟩
        rw [hnil] at this
        cases this
    have := (RV.fromRvs0_blank st _ (some (ys.map fun x => (x.2 : ℤ)))).2 hb
    rw [this] at hx
    cases hx
    rfl
  · have : mixed (push G cs) = Spec.Naive.one (l.map fun x => (x.1, x.2 / mean l fun _ => 1)) := by
      unfold mixed
      rw [← hl, if_neg hnil]
    rw [this]
    have ht : 0 < mean l fun _ => 1 := by
      obtain ⟨z, hz⟩ := List.exists_mem_of_ne_nil _ hnil
      exact mean_pos hlp (fun _ _ => zero_le_one) hz one_pos
    have hp : wsum C (fun os => if (valLaw (G (rebuild vals os))).isSome then 1 else 0) ≠ 0 := by
      rw [htot]
      exact mul_ne_zero hmass ht.ne'
    obtain ⟨r, rfl, m1, m2, m3, m4⟩ := mixSteps0 hstep hx hp
    refine Rep.one (DieRep.of m1 m2 ?_ (fun f => ?_) fun v hv => ?_) m3
    · intro z hz
      obtain ⟨z', hz', rfl⟩ := List.mem_map.1 hz
      exact div_pos (hlp z' hz') ht
    · refine (m4 f).trans ((congrArg₂ (· / ·) (hsum f) htot).trans ?_)
      rw [mul_div_mul_left _ _ hmass]
      have : ∀ m : Law, mean (m.map fun x => (x.1, x.2 / mean l fun _ => 1)) f = mean m f / mean l fun _ => 1 := by
        intro m
        induction m with
        | nil => simp
        | cons z m ih => rw [List.map_cons, mean_cons, mean_cons, ih]; ring
      rw [this]
    · have hgood : ∀ e ∈ ys.map fun x => x.1, e.Good := by
        intro e he
        obtain ⟨y, hy, rfl⟩ := List.mem_map.1 he
        obtain ⟨c, _, _, o, h2, ho⟩ := forall₂_right hys hy
        rw [h2]
        exact resultEntry_good ho.resLaw.2
      obtain ⟨e, he, hve⟩ := fromRvs0_support hx hgood (by
        change ((RV.live (ys.map fun x => x.1) (ys.map fun x => (x.2 : ℤ))).map _).sum ≠ 0
        rw [(live_step hstep fun _ => 0).2]
        exact hp) hv
      obtain ⟨y, hy, rfl⟩ := List.mem_map.1 he
      obtain ⟨c, hc, _, o, h2, ho⟩ := forall₂_right hys hy
      rw [h2] at hve
      have h3 := ho.entry hve
      have h4 : v ∈ l.map Prod.fst := by
        rw [hl, mem_fst_andThen]
        exact ⟨_, mem_fst_push.2 ⟨_, (hC c hc).2, rfl⟩, h3⟩
      rw [List.map_map]
      exact h4

theorem mix_ok (st : Settings) {G : List Obj → Option Val} {C : List (List Obj × ℕ)} {ys : List (RV.Entry ℤ × ℕ)}
    (hys : List.Forall₂ (StepRep G) C ys) : ∃ x, RV.fromRvs0 st (ys.map fun x => x.1) (some (ys.map fun x => (x.2 : ℤ))) = .ok x := by
  refine Fine.fromRvs0 st (by simp) (fun w hw => ?_) fun e he => ?_
  · obtain ⟨y, _, rfl⟩ := List.mem_map.1 hw
    positivity
  · obtain ⟨y, hy, rfl⟩ := List.mem_map.1 he
    obtain ⟨c, _, _, o, h2, ho⟩ := forall₂_right hys hy
    rw [h2]
    exact resultEntry_good ho.resLaw.2

theorem not_isRandom {a : Option Ty × Obj} (h : (slotOf a).isHard = false) : ¬ IsRandom a := by
  obtain ⟨t, o⟩ := a
  rcases t with _ | t
  · exact id
  · cases t <;> cases o <;> first | exact id | (simp [slotOf, Slot.isHard] at h)

/-- A casting function gives what calls for every choice of the arguments give. -/
theorem full_castRep {I : Settings → Prop} {f : List Obj → M (Option Obj)} {g : List Val → Option (Option Val)}
    {args : List (Option Ty × Obj)} {vals : List (Option Ty × Val)} {v : Val} (h : List.Forall₂ RepA args vals)
    (hf : ∀ os vs r, List.Forall₂ Rep os vs → g vs = some r → Full I (f os) fun o => RepO o r) (hv : Spec.Naive.cast g vals = some v) :
    Full I (castCall f args) fun o => Rep (o.getD (.blank false)) v := by
  unfold Spec.Naive.cast at hv
  by_cases h1 : vals.any nothing
  · rw [if_pos h1] at hv
    cases hv
    rw [castCall_eq, if_pos (by rw [any_congr (fun a b (hab : RepA a b) => aborts_nothing hab) h]; exact h1)]
    exact Full.pure rfl
  · rw [if_neg h1] at hv
    have h1' : ¬ args.any castAborts = true := by rw [any_congr (fun a b (hab : RepA a b) => aborts_nothing hab) h]; exact h1
    have hh : (args.map slotOf).any Slot.isHard = vals.any random := by
      rw [List.any_map]
      exact any_congr (fun a b hab => hard_random hab) h
    by_cases h2 : vals.any random
    · rw [if_pos h2] at hv
      simp only [Option.bind_eq_bind, Option.bind_eq_some_iff, Option.some.injEq] at hv
      obtain ⟨cs, hcs, rs, hrs, rfl⟩ := hv
      obtain ⟨e1, e2⟩ := callAll_some hrs
      subst e1
      rw [castCall_eq, if_neg h1', if_pos (by rw [hh]; exact h2)]
      obtain ⟨_, hC, _⟩ := args_rep h hcs
      have hT : ∀ c ∈ combos (args.map slotOf), Full I (castStep f c) (StepRep (fun os => (g (rebuild vals os)).getD none) c) := by
        intro c hc
        obtain ⟨p1, p2⟩ := hC c hc
        exact Full.bind (hf _ _ _ p1 (e2 _ p2)) (fun o ho => Full.pure ⟨rfl, o, rfl, ho⟩) fun _ => Triple.pure True.intro
      refine Full.bind (Full.forList hT) (fun ys hys => ?_) fun ys => triple_castMix ys
      unfold castMix
      refine Full.bind (P := fun x => Rep (objOfRV x) (mixed (push (fun vs => (g vs).getD none) cs))) (Full.ofLimited ?_ ?_)
        (fun x hx => Full.pure hx) fun x => Triple.pure True.intro
      · intro st x _ hx
        exact mix_rep0 h hcs (G := fun vs => (g vs).getD none) hys (RV.fromRvs0_of hx)
      · intro st _
        exact Fine.of_fromRvs0 (mix_ok st hys)
    · rw [if_neg h2] at hv
      simp only [Option.bind_eq_bind, Option.bind_eq_some_iff, Option.some.injEq] at hv
      obtain ⟨r, hr, rfl⟩ := hv
      rw [C15_no_dice f args (by simpa using h1') (fun a ha => not_isRandom (by
        rw [← hh] at h2
        simp only [List.any_map, List.any_eq_true, not_exists, not_and] at h2
        simpa using h2 a ha))]
      refine Full.mono (hf _ _ _ ?_ hr) fun o ho => ho.getD
      clear hr h1 h1' h2 hh
      induction h with
      | nil => exact .nil
      | cons hd _ ih => exact .cons (convert_rep hd) ih

end Enum
end PythonDice
