import Verif.Proofs.OwnCalls
import Verif.Props.Inline

/-!
# C97: the function library can be written in the language

src/funclib.py says in Python what its functions do.  The same functions can be defined in a program; the definitions are in Verif/Spec/OwnLibrary.lean, with
their texts.  Calling such a function does exactly what calling the function of the library does: it gives the same object, or fails in the same way, for all
arguments of all kinds, also those that have to be converted (a die where a number is expected, a pool where a sequence is expected, a blank die), under both
treatments of variables and of numbers, whatever variables the program has and whatever the other functions are, and leaves the same state.  Where a function
may not be called any more, because too many calls are open, this does not hold: functions of the library are not counted.
-/

namespace PythonDice

open Spec Spec.Own Compiler Own

variable (R : Rules) (n : ℕ) (fr : Frame) (fns : Fns) {w : World}

theorem C97_absolute (h : w.settings.currDepth < w.settings.maxFuncDepth) (a : Obj) :
    DoesAs w (runCall R (n + 1) fr fns absoluteHead absoluteBody [a]) (absolute a) := by
  refine (like_call h (ts := [some .N]) rfl rfl (f := absoluteFn) (fun l => by unfold absoluteFn; split <;> first | exact Deepless.pure _ | exact Deepless.throw _)
    (fun l => by unfold absoluteFn; split <;> first | exact KeepsSettings.pure _ | exact KeepsSettings.throw _) fun os hos => ?_).doesAs
  match os, hos with
  | [.num x], _ =>
    rw [absolute_body]
    exact Like.pure _

theorem C97_contains (h : w.settings.currDepth < w.settings.maxFuncDepth) (a b : Obj) :
    DoesAs w (runCall R (n + 1) fr fns containsHead containsBody [a, b]) (contains a b) := by
  refine (like_call h (ts := [some .S, some .N]) rfl rfl (f := containsFn) (fun l => by unfold containsFn; split <;> first | exact Deepless.pure _ | exact Deepless.throw _)
    (fun l => by unfold containsFn; split <;> first | exact KeepsSettings.pure _ | exact KeepsSettings.throw _) fun os hos => ?_).doesAs
  match os, hos with
  | [.seq s, .num x], _ =>
    rw [contains_body]
    exact Like.pure _

theorem C97_count (h : w.settings.currDepth < w.settings.maxFuncDepth) (a b : Obj) :
    DoesAs w (runCall R (n + 1) fr fns countHead countBody [a, b]) (countIn a b) := by
  refine (like_call h (ts := [some .S, some .S]) rfl rfl (f := countInFn) (fun l => by unfold countInFn; split <;> first | exact Deepless.pure _ | exact Deepless.throw _)
    (fun l => by unfold countInFn; split <;> first | exact KeepsSettings.pure _ | exact KeepsSettings.throw _) fun os hos => ?_).doesAs
  match os, hos with
  | [.seq s, .seq t], _ =>
    rw [count_body]
    exact Like.pure _

theorem C97_reverse (h : w.settings.currDepth < w.settings.maxFuncDepth) (a : Obj) :
    DoesAs w (runCall R (n + 1) fr fns reverseHead reverseBody [a]) (reverse a) := by
  refine (like_call h (ts := [some .S]) rfl rfl (f := reverseFn) (fun l => by unfold reverseFn; split <;> first | exact Deepless.pure _ | exact Deepless.throw _)
    (fun l => by unfold reverseFn; split <;> first | exact KeepsSettings.pure _ | exact KeepsSettings.throw _) fun os hos => ?_).doesAs
  match os, hos with
  | [.seq s], _ =>
    rw [reverse_body]
    exact Like.pure _

theorem C97_maximum (h : w.settings.currDepth < w.settings.maxFuncDepth) (a : Obj) :
    DoesAs w (runCall R (n + 1) fr fns maximumHead maximumBody [a]) (maximumOf a) :=
  (maximum_like h R n fr fns a).doesAs

theorem C97_highest_of (h : w.settings.currDepth < w.settings.maxFuncDepth) (a b : Obj) :
    DoesAs w (runCall R (n + 1) fr fns greaterHead greaterBody [a, b]) (highestOf a b) := by
  refine (like_call h (ts := [some .N, some .N]) rfl rfl (f := highestOfFn) (fun l => by unfold highestOfFn; split <;> first | exact Deepless.pure _ | exact Deepless.throw _)
    (fun l => by unfold highestOfFn; split <;> first | exact KeepsSettings.pure _ | exact KeepsSettings.throw _) fun os hos => ?_).doesAs
  match os, hos with
  | [.num s, .num t], _ =>
    rw [greater_body]
    exact Like.pure _

theorem C97_lowest_of (h : w.settings.currDepth < w.settings.maxFuncDepth) (a b : Obj) :
    DoesAs w (runCall R (n + 1) fr fns smallerHead smallerBody [a, b]) (lowestOf a b) := by
  refine (like_call h (ts := [some .N, some .N]) rfl rfl (f := lowestOfFn) (fun l => by unfold lowestOfFn; split <;> first | exact Deepless.pure _ | exact Deepless.throw _)
    (fun l => by unfold lowestOfFn; split <;> first | exact KeepsSettings.pure _ | exact KeepsSettings.throw _) fun os hos => ?_).doesAs
  match os, hos with
  | [.num s, .num t], _ =>
    rw [smaller_body]
    exact Like.pure _

theorem C97_highest (h : w.settings.currDepth < w.settings.maxFuncDepth) (a b : Obj) :
    DoesAs w (runCall R (n + 1) fr fns highestHead highestBody [a, b]) (highestN a b) := by
  have hk : ∀ l, KeepsSettings (highestNFn l) := fun l => by
    unfold highestNFn; split <;> first | exact KeepsSettings.map _ (KeepsSettings.matmul _ _) | exact KeepsSettings.throw _
  refine (like_call h (ts := [some .N, some .D]) rfl rfl (f := highestNFn)
    (fun l => by unfold highestNFn; split <;> first | exact Deepless.map _ (Deepless.matmul _ _) | exact Deepless.throw _) hk fun os hos => ?_).doesAs
  match os, hos with
  | [.num s, d], _ =>
    rw [highest_body]
    exact Like.refl (hk _)

theorem C97_lowest (h : w.settings.currDepth < w.settings.maxFuncDepth) (a b : Obj) :
    DoesAs w (runCall R (n + 1) fr fns lowestHead lowestBody [a, b]) (lowestN a b) := by
  have hk : ∀ l, KeepsSettings (lowestNFn l) := fun l => by
    unfold lowestNFn; split <;> first | exact KeepsSettings.map _ (KeepsSettings.matmul _ _) | exact KeepsSettings.throw _
  refine (like_call h (ts := [some .N, some .D]) rfl rfl (f := lowestNFn)
    (fun l => by unfold lowestNFn; split <;> first | exact Deepless.map _ (Deepless.matmul _ _) | exact Deepless.throw _) hk fun os hos => ?_).doesAs
  match os, hos with
  | [.num s, d], .cons _ (.cons hd _) =>
    rw [lowest_body _ _ _ _ _ _ hd]
    exact Like.refl (hk _)

theorem C97_middle (h : w.settings.currDepth < w.settings.maxFuncDepth) (a b : Obj) :
    DoesAs w (runCall R (n + 1) fr fns middleHead middleBody [a, b]) (middleN a b) := by
  have hk : ∀ l, KeepsSettings (middleNFn l) := fun l => by
    unfold middleNFn
    split
    · dsimp only
      split
      · exact KeepsSettings.pure _
      · split
        · exact KeepsSettings.map _ (KeepsSettings.matmul _ _)
        · exact KeepsSettings.map _ (KeepsSettings.matmul _ _)
    · exact KeepsSettings.throw _
  have hd : ∀ l, Deepless (middleNFn l) := fun l => by
    unfold middleNFn
    split
    · dsimp only
      split
      · exact Deepless.pure _
      · split
        · exact Deepless.map _ (Deepless.matmul _ _)
        · exact Deepless.map _ (Deepless.matmul _ _)
    · exact Deepless.throw _
  refine (like_call h (ts := [some .N, some .D]) rfl rfl (f := middleNFn) hd hk fun os hos => ?_).doesAs
  match os, hos with
  | [.num s, d], .cons _ (.cons hd _) =>
    rw [middle_body _ _ _ _ _ _ hd]
    exact Like.refl (hk _)

/-- Sorting calls the function that puts a number into a sorted sequence. -/
theorem C97_sort (h : w.settings.currDepth + 1 < w.settings.maxFuncDepth) (hput : fns.lookup (defSig putHead) = some (.user putHead putBody)) (a : Obj) :
    DoesAs w (runCall R (n + 2) fr fns sortHead sortBody [a]) (sort a) := by
  refine (like_call (by omega) (ts := [some .S]) rfl rfl (f := sortFn) (fun l => by unfold sortFn; split <;> first | exact Deepless.pure _ | exact Deepless.throw _)
    (fun l => by unfold sortFn; split <;> first | exact KeepsSettings.pure _ | exact KeepsSettings.throw _) fun os hos => ?_).doesAs
  match os, hos with
  | [.seq s], _ => exact sort_body h R n fns hput fr s

/-- Exploding calls the function for the highest outcome, and a helper that calls itself. -/
theorem C97_explode (z : ℤ) (h : w.settings.currDepth + 1 + z.toNat < w.settings.maxFuncDepth) (hn : z.toNat + 1 < n)
    (hg : fns.lookup (defSig growHead) = some (.user growHead growBody))
    (hm : fns.lookup (defSig maximumHead) = some (.user maximumHead maximumBody)) (d : Obj) :
    DoesAs w (runCall R n fr fns explodeHead explodeBody [d, .num z]) (explode d (some z)) :=
  (explode_like R fns hg hm _ n fr d z h hn).doesAs

/-- The library takes how often to explode from the settings. -/
theorem C97_explode_setting (h : w.settings.currDepth + 1 + w.settings.explodeDepth.toNat < w.settings.maxFuncDepth) (hn : w.settings.explodeDepth.toNat + 1 < n)
    (hg : fns.lookup (defSig growHead) = some (.user growHead growBody))
    (hm : fns.lookup (defSig maximumHead) = some (.user maximumHead maximumBody)) (d : Obj) :
    DoesAs w (runCall R n fr fns explodeHead explodeBody [d, .num w.settings.explodeDepth]) (explode d) := by
  have e : explode d none w = explode d (some w.settings.explodeDepth) w := by
    have h1 : ∀ (x : Obj) (u : World), u.settings = w.settings → explodeFn none [x] u = explodeFn (some w.settings.explodeDepth) [x] u := by
      intro x u hu
      show (M.settings >>= fun st => maximumOf x >>= fun mx => explodeHelper ((none : Option ℤ).getD st.explodeDepth).toNat x mx x) u = _
      show (maximumOf x >>= fun mx => explodeHelper u.settings.explodeDepth.toNat x mx x) u = _
      rw [hu]
      rfl
    have h2 : ∀ x : Obj, orBlank (explodeFn none [x]) w = orBlank (explodeFn (some w.settings.explodeDepth) [x]) w := by
      intro x
      unfold orBlank
      show M.bind _ _ w = M.bind _ _ w
      unfold M.bind
      rw [h1 x w rfl]
    have h3 : ∀ (k : Option ℤ) (a : Settings → Except Err (RV ℤ)), castSlot (some .D) d = (do return .easy (.rv (← M.ofSettings a))) → castAborts (some .D, d) = false →
        explode d k w = (M.ofSettings a >>= fun r => orBlank (explodeFn k [.rv r])) w := by
      intro k a ha hb
      unfold explode castCall
      rw [show ([((some .D : Option Ty), d)].any castAborts) = false by simp [hb], if_neg (by decide)]
      simp only [M.forList]
      rw [ha]
      unfold orBlank
      simp only [bind_assoc, pure_bind]
      rfl
    have h4 : ∀ a : Settings → Except Err (RV ℤ), (M.ofSettings a >>= fun r => orBlank (explodeFn none [.rv r])) w =
        (M.ofSettings a >>= fun r => orBlank (explodeFn (some w.settings.explodeDepth) [.rv r])) w := by
      intro a
      show M.bind _ _ w = M.bind _ _ w
      unfold M.bind M.ofSettings
      dsimp only
      cases a w.settings with
      | error e => rfl
      | ok r => exact h2 (.rv r)
    cases d with
    | num x => rw [h3 _ _ rfl rfl, h3 _ _ rfl rfl, h4]
    | seq s => rw [h3 _ _ rfl rfl, h3 _ _ rfl rfl, h4]
    | rv r => exact h2 (.rv r)
    | blank b => exact h2 (.blank b)
  have := C97_explode R n fr fns w.settings.explodeDepth h hn hg hm d
  unfold DoesAs at this ⊢
  rw [e]
  exact this

theorem runArgs_args (R : Rules) (call : RunCall) (fns : Fns) (fr : Frame) (cs : CallParts) :
    runArgs R call fns fr cs = M.forList (runE R call fns fr) (argsOf cs) := by
  match cs with
  | .nil => rw [runArgs]; rfl
  | .word x cs => rw [runArgs, runArgs_args R call fns fr cs]; rfl
  | .arg e cs => rw [runArgs, runArgs_args R call fns fr cs]; rfl

/-- An expression that calls the own function gives what the expression gives that calls the function of the library with the same arguments. -/
theorem C97_expression {R : Rules} {n : ℕ} {fr : Frame} {fns : Fns} {d : List DefPart} {body : Block} {cs cs' : CallParts} {f : List Obj → M Obj}
    (h1 : fns.lookup (callSig cs) = some (.user d body)) (h2 : fns.lookup (callSig cs') = some (.lib f)) (h3 : argsOf cs = argsOf cs')
    (hf : ∀ (os : List Obj) (w' : World), runArgs R (runCall R n) fns fr cs' w = (.ok os, w') → DoesAs w' (runCall R n fr fns d body os) (f os)) :
    DoesAs w (runE R (runCall R n) fns fr (.call cs)) (runE R (runCall R n) fns fr (.call cs')) := by
  have e1 : runE R (runCall R n) fns fr (.call cs) w = M.bind (runArgs R (runCall R n) fns fr cs') (fun os => runCall R n fr fns d body os) w := by
    rw [runE, getFn, h1, pure_bind, runArgs_args, runArgs_args, h3]
    rfl
  have e2 : runE R (runCall R n) fns fr (.call cs') w = M.bind (runArgs R (runCall R n) fns fr cs') f w := by
    rw [runE, getFn, h2, pure_bind]
    rfl
  unfold DoesAs
  rw [e1, e2]
  unfold M.bind
  rcases hr : runArgs R (runCall R n) fns fr cs' w with ⟨r, w'⟩
  cases r with
  | error e => exact ⟨rfl, fun o ho => (by cases ho)⟩
  | ok os => exact hf os w' hr

/-- Where no function may be called any more, the function of the library still can be called. -/
theorem C97_deep_counterexample : ¬∀ (w : World) (a : Obj), DoesAs w (runCall ⟨true, true, true⟩ 1 ⟨none, [], []⟩ [] absoluteHead absoluteBody [a]) (absolute a) := by
  intro h
  have := (h { settings := { currDepth := 10 } } (.num 1)).1
  revert this
  decide +kernel

/-- The functions defined in the program below. -/
def ownFns : Fns := [(defSig sortHead, .user sortHead sortBody), (defSig putHead, .user putHead putBody), (defSig explodeHead, .user explodeHead explodeBody),
  (defSig growHead, .user growHead growBody), (defSig maximumHead, .user maximumHead maximumBody)]

example : ownFns.lookup (defSig putHead) = some (.user putHead putBody) ∧ ownFns.lookup (defSig growHead) = some (.user growHead growBody) ∧
    ownFns.lookup (defSig maximumHead) = some (.user maximumHead maximumBody) ∧
    ({} : World).settings.currDepth + 1 + ({} : World).settings.explodeDepth.toNat < ({} : World).settings.maxFuncDepth := ⟨rfl, rfl, rfl, by decide⟩

/-- The die with the faces 1 and 2. -/
def ownDie : Obj := .rv ⟨[1, 2], [1, 1], none⟩

/-- A die for a sequence: the function is called for each of its outcomes. -/
example : (runCall ⟨false, true, false⟩ 5 ⟨none, [], []⟩ ownFns explodeHead explodeBody [ownDie, .num 2] {}).1 = .ok (.rv ⟨[1, 3, 5, 6], [4, 2, 1, 1], none⟩) ∧
    (explode ownDie none {}).1 = .ok (.rv ⟨[1, 3, 5, 6], [4, 2, 1, 1], none⟩) := by
  refine ⟨?_, ?_⟩ <;> decide +kernel

example : (runCall ⟨true, true, false⟩ 5 ⟨none, [], []⟩ ownFns sortHead sortBody [.seq [1, 3, 2]] {}).1 = .ok (.seq [3, 2, 1]) ∧
    (runCall ⟨true, true, false⟩ 5 ⟨none, [], []⟩ ownFns sortHead sortBody [.blank false] {}).1 = .ok (.blank true) ∧
    (runCall ⟨true, true, false⟩ 5 ⟨none, [], []⟩ [] absoluteHead absoluteBody [.rv ⟨[-1, 0, 1], [1, 1, 1], none⟩] {}).1 =
      .ok (.rv ⟨[0, 1], [1, 2], none⟩) := by
  refine ⟨?_, ?_, ?_⟩ <;> decide +kernel

/-- The expressions `[own absolute -2]` and `[absolute -2]`. -/
def ownCall (own : Bool) : CallParts :=
  let a := CallParts.word "absolute".toList (.arg (.unary .minus (k "2")) .nil)
  if own then .word "own".toList a else a

example (w : World) (h : w.settings.currDepth < w.settings.maxFuncDepth) : let fns : Fns := (defSig absoluteHead, .user absoluteHead absoluteBody) :: libraryFns
    DoesAs w (runE ⟨true, true, true⟩ (runCall ⟨true, true, true⟩ 3) fns ⟨none, [], []⟩ (.call (ownCall true)))
      (runE ⟨true, true, true⟩ (runCall ⟨true, true, true⟩ 3) fns ⟨none, [], []⟩ (.call (ownCall false))) := by
  refine C97_expression (f := fun | [a] => absolute a | _ => M.throw .type) rfl rfl rfl fun os w' hw => ?_
  cases hw
  exact C97_absolute _ 2 _ _ h (.num (-2))

/-! ## The texts are read as these trees -/

set_option linter.unusedSimpArgs false

theorem C97_text_absolute : SourceOf (Lexer.tokens Char.isDigit "function: own absolute X:n { if X < 0 { result: -X } result: X }".toList) (blk [.function absoluteHead absoluteBody]) := by
  refine ⟨by decide +kernel, ?_⟩
  simp [absoluteHead, absoluteBody, WrittenB, WrittenS, Written, WrittenC, WrittenE, WrittenR, Spec.FirstOK, SeparateNext, level, opLevel, TypeOK]
  try decide +kernel

theorem C97_text_contains : SourceOf (Lexer.tokens Char.isDigit "function: own S:s contains N:n { result: (S = N) > 0 }".toList) (blk [.function containsHead containsBody]) := by
  refine ⟨by decide +kernel, ?_⟩
  simp [containsHead, containsBody, WrittenB, WrittenS, Written, WrittenC, WrittenE, WrittenR, Spec.FirstOK, SeparateNext, level, opLevel, TypeOK]
  try decide +kernel

theorem C97_text_count : SourceOf (Lexer.tokens Char.isDigit "function: own count V:s in S:s { C: 0 loop P over {1..#V} { C: C + (P@V = S) } result: C }".toList) (blk [.function countHead countBody]) := by
  refine ⟨by decide +kernel, ?_⟩
  simp [countHead, countBody, countStep, WrittenB, WrittenS, Written, WrittenC, WrittenE, WrittenR, Spec.FirstOK, SeparateNext, level, opLevel, TypeOK]
  try decide +kernel

theorem C97_text_reverse : SourceOf (Lexer.tokens Char.isDigit "function: own reverse S:s { R: {} loop P over {1..#S} { R: {P@S, R} } result: R }".toList) (blk [.function reverseHead reverseBody]) := by
  refine ⟨by decide +kernel, ?_⟩
  simp [reverseHead, reverseBody, reverseStep, WrittenB, WrittenS, Written, WrittenC, WrittenE, WrittenR, Spec.FirstOK, SeparateNext, level, opLevel, TypeOK]
  try decide +kernel

theorem C97_text_maximum : SourceOf (Lexer.tokens Char.isDigit "function: own maximum of D:d { S: {D} result: #S @ S }".toList) (blk [.function maximumHead maximumBody]) := by
  refine ⟨by decide +kernel, ?_⟩
  simp [maximumHead, maximumBody, WrittenB, WrittenS, Written, WrittenC, WrittenE, WrittenR, Spec.FirstOK, SeparateNext, level, opLevel, TypeOK]
  try decide +kernel

theorem C97_text_grow : SourceOf (Lexer.tokens Char.isDigit "function: own grow N:n top M:n of D:d by K:n { if N = M { if K > 0 { result: N + [own grow D top M of D by K - 1] } } result: N }".toList) (blk [.function growHead growBody]) := by
  refine ⟨by decide +kernel, ?_⟩
  simp [growHead, growBody, growCall, WrittenB, WrittenS, Written, WrittenC, WrittenE, WrittenR, Spec.FirstOK, SeparateNext, level, opLevel, TypeOK]
  try decide +kernel

theorem C97_text_explode : SourceOf (Lexer.tokens Char.isDigit "function: own explode D:d by K:n { result: [own grow D top [own maximum of D] of D by K] }".toList) (blk [.function explodeHead explodeBody]) := by
  refine ⟨by decide +kernel, ?_⟩
  simp [explodeHead, explodeBody, maximumCall, explodeCall, WrittenB, WrittenS, Written, WrittenC, WrittenE, WrittenR, Spec.FirstOK, SeparateNext, level, opLevel, TypeOK]
  try decide +kernel

theorem C97_text_highest : SourceOf (Lexer.tokens Char.isDigit "function: own highest N:n of D:d { result: {1..N} @ D }".toList) (blk [.function highestHead highestBody]) := by
  refine ⟨by decide +kernel, ?_⟩
  simp [highestHead, highestBody, WrittenB, WrittenS, Written, WrittenC, WrittenE, WrittenR, Spec.FirstOK, SeparateNext, level, opLevel, TypeOK]
  try decide +kernel

theorem C97_text_lowest : SourceOf (Lexer.tokens Char.isDigit "function: own lowest N:n of D:d { result: {#D - N + 1..#D} @ D }".toList) (blk [.function lowestHead lowestBody]) := by
  refine ⟨by decide +kernel, ?_⟩
  simp [lowestHead, lowestBody, WrittenB, WrittenS, Written, WrittenC, WrittenE, WrittenR, Spec.FirstOK, SeparateNext, level, opLevel, TypeOK]
  try decide +kernel

theorem C97_text_middle : SourceOf (Lexer.tokens Char.isDigit "function: own middle N:n of D:d { if N = #D { result: D } if N = 1 { result: (1 + (#D - 1) / 2) @ D } F: 1 + (#D - N) / 2 result: {F..F + N - 1} @ D }".toList) (blk [.function middleHead middleBody]) := by
  refine ⟨by decide +kernel, ?_⟩
  simp [middleHead, middleBody, WrittenB, WrittenS, Written, WrittenC, WrittenE, WrittenR, Spec.FirstOK, SeparateNext, level, opLevel, TypeOK]
  try decide +kernel

theorem C97_text_greater : SourceOf (Lexer.tokens Char.isDigit "function: own highest of A:n and B:n { if A > B { result: A } result: B }".toList) (blk [.function greaterHead greaterBody]) := by
  refine ⟨by decide +kernel, ?_⟩
  simp [greaterHead, greaterBody, WrittenB, WrittenS, Written, WrittenC, WrittenE, WrittenR, Spec.FirstOK, SeparateNext, level, opLevel, TypeOK]
  try decide +kernel

theorem C97_text_smaller : SourceOf (Lexer.tokens Char.isDigit "function: own lowest of A:n and B:n { if A < B { result: A } result: B }".toList) (blk [.function smallerHead smallerBody]) := by
  refine ⟨by decide +kernel, ?_⟩
  simp [smallerHead, smallerBody, WrittenB, WrittenS, Written, WrittenC, WrittenE, WrittenR, Spec.FirstOK, SeparateNext, level, opLevel, TypeOK]
  try decide +kernel

theorem C97_text_put : SourceOf (Lexer.tokens Char.isDigit "function: own put N:n into S:s { R: {} W: 0 loop X over S { if W = 0 { if N >= X { R: {R, N} W: 1 } } R: {R, X} } if W = 0 { R: {R, N} } result: R }".toList) (blk [.function putHead putBody]) := by
  refine ⟨by decide +kernel, ?_⟩
  simp [putHead, putBody, putStep, WrittenB, WrittenS, Written, WrittenC, WrittenE, WrittenR, Spec.FirstOK, SeparateNext, level, opLevel, TypeOK]
  try decide +kernel

theorem C97_text_sort : SourceOf (Lexer.tokens Char.isDigit "function: own sort S:s { R: {} loop X over S { R: [own put X into R] } result: R }".toList) (blk [.function sortHead sortBody]) := by
  refine ⟨by decide +kernel, ?_⟩
  simp [sortHead, sortBody, putCall, sortStep, WrittenB, WrittenS, Written, WrittenC, WrittenE, WrittenR, Spec.FirstOK, SeparateNext, level, opLevel, TypeOK]
  try decide +kernel

/-- `function: own absolute X:n { if X < 0 { result: -X } result: X } output [own absolute -2]` -/
def ownProgram : Block := blk [.function absoluteHead absoluteBody, .output (.call (ownCall true))]

/-- A text with the definition and a call, and the Python program that it becomes. -/
theorem ownText_covered : ∃ p,
    Covered {} "function: own absolute X:n { if X < 0 { result: -X } result: X } output [own absolute -2]".toList ownProgram p :=
  given_covered (t := "@anydice_casting()\ndef own_absolute_X(X: T_N):\n  if X < 0:\n    return -X\n  \n  return X\n\noutput(own_absolute_X(-2))\n".toList)
    (by rw [compile, Yacc.tables_eq]; decide +kernel)
    (by
      simp [ownProgram, ownCall, absoluteHead, absoluteBody, WrittenB, WrittenS, Written, WrittenC, WrittenE, WrittenR, Spec.FirstOK, SeparateNext, level, opLevel,
        TypeOK]
      decide +kernel)
    (by decide +kernel) (by decide +kernel) (by decide +kernel) (by decide +kernel) (by decide +kernel) (by unfold collides; decide +kernel) rfl

example : (Spec.run ⟨false, false, true⟩ 3 ownProgram {}).1 = .ok [(.num 2, none)] := by decide +kernel

end PythonDice
