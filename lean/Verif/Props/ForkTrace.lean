import Verif.Model.ForkTrace
import Verif.Props.Fork
/-
C170: what calls in a forked process leave behind.
-/
namespace Verif
namespace Fork

theorem parent_fds (cap sizeofRet : Nat) (y : Sys) (f : Child) (i : Nat) (w : World) :
    (parent cap sizeofRet y f i w).2.fds = w.fds := by
  unfold parent
  split
  · rfl
  · split <;> rfl

/-- A call in which nothing fails: descriptors 3 and 4, child 77, "hi" printed. -/
def good : Sys := ⟨some (3, 4), some 77, false, ['h', 'i'], ['.']⟩

/-- A process with the three standard descriptors, a child of its own and unfinished text. -/
def busy : World := ⟨{0, 1, 2}, {50}, ['a'], []⟩

theorem good_fresh : good.Fresh busy := by
  refine ⟨?_, ?_⟩
  · intro p hp
    cases hp
    decide
  · intro i hi
    cases hi
    decide

theorem close_open (p : Nat × Nat) (s : Finset Nat) (h : p.1 ≠ p.2 ∧ p.1 ∉ s ∧ p.2 ∉ s) :
    ((insert p.1 (insert p.2 s)).erase p.1).erase p.2 = s := by
  rw [Finset.erase_insert (by simp [h.1, h.2.1]), Finset.erase_insert h.2.2]

/-- C170. A call that comes back, normally or by an exception, has closed what it has opened, whatever fails. -/
theorem C170_descriptors (cap sizeofRet : Nat) (y : Sys) (f : Child) (w : World) (hf : y.Fresh w)
    (hb : (traced cap sizeofRet y f w).1.Back) : (traced cap sizeofRet y f w).2.fds = w.fds := by
  unfold traced at hb ⊢
  cases hp : y.pipeFds with
  | none => simp [openPipe, hp]
  | some p =>
    have hd := hf.1 p hp
    simp only [openPipe, hp] at hb ⊢
    cases hi : y.pid with
    | none => simp only [startChild, hi, closePipe]; exact close_open p _ hd
    | some i =>
      simp only [startChild, hi] at hb ⊢
      split_ifs at hb ⊢ with h
      · rcases h with h | h <;> rw [h] at hb <;> exact hb.elim
      · simp only [closePipe, parent_fds]
        exact close_open p _ hd

/-- A function that throws, and a `fork()` that fails: in both cases 3 and 4 are closed again. -/
example : (traced 65536 4 good (.throwsStd [111]) busy).1 = .done (.threw [111]) ∧
    (traced 65536 4 good (.throwsStd [111]) busy).2.fds = {0, 1, 2} ∧
    (traced 65536 4 { good with pid := none } (.returns [1, 2, 3, 4]) busy).1 = .noFork ∧
    (traced 65536 4 { good with pid := none } (.returns [1, 2, 3, 4]) busy).2.fds = {0, 1, 2} := by
  refine ⟨by decide +kernel, ?_, rfl, ?_⟩
  · exact C170_descriptors _ _ _ _ _ good_fresh (by
      have : (traced 65536 4 good (.throwsStd [111]) busy).1 = .done (.threw [111]) := by decide +kernel
      rw [this]; trivial)
  · exact C170_descriptors _ _ _ _ _ ⟨good_fresh.1, fun i hi => by cases hi⟩ trivial

/-- C170. Any number of calls that come back does not use up descriptors. -/
theorem C170_many (cap sizeofRet : Nat) (cs : List (Sys × Child)) (w : World)
    (h : ∀ a c b, cs = a ++ c :: b → c.1.Fresh (tracedAll cap sizeofRet a w) ∧
      (traced cap sizeofRet c.1 c.2 (tracedAll cap sizeofRet a w)).1.Back) :
    (tracedAll cap sizeofRet cs w).fds = w.fds := by
  induction cs generalizing w with
  | nil => rfl
  | cons c cs ih =>
    have h0 := h [] c cs rfl
    rw [tracedAll, ih _ fun a d b e => h (c :: a) d b (by rw [e]; rfl)]
    exact C170_descriptors cap sizeofRet c.1 c.2 w h0.1 h0.2

/-- Two calls that get the same descriptors, the second ended by a signal. -/
example : (tracedAll 65536 1 [(good, .returns [9]), (good, .signalled 11)] busy).fds = busy.fds := by
  have h0 : (tracedAll 65536 1 [(good, .returns [9])] busy).fds = busy.fds ∧
      (tracedAll 65536 1 [(good, .returns [9])] busy).children = busy.children := by decide +kernel
  refine C170_many _ _ _ _ ?_
  intro a c b h
  match a, h with
  | [], h =>
    cases h
    have : (traced 65536 1 good (.returns [9]) busy).1 = .done (.returned [9]) := by decide +kernel
    exact ⟨good_fresh, by rw [tracedAll, this]; trivial⟩
  | [x], h =>
    cases h
    refine ⟨⟨?_, ?_⟩, ?_⟩
    · rw [h0.1]; exact good_fresh.1
    · rw [h0.2]; exact good_fresh.2
    · have : (traced 65536 1 good (.signalled 11) (tracedAll 65536 1 [(good, .returns [9])] busy)).1 =
        .done (.threwSignal 11) := by decide +kernel
      rw [this]; trivial
  | x :: y :: a, h => simp at h

/-- C170. If `waitpid` is not interrupted, a call that comes back leaves no child behind. Missing: interrupted calls, for
which the claim is false. -/
theorem C170_children_partial (cap sizeofRet : Nat) (y : Sys) (f : Child) (w : World) (hf : y.Fresh w)
    (hb : (traced cap sizeofRet y f w).1.Back) (hi : y.interrupted = false) :
    (traced cap sizeofRet y f w).2.children = w.children := by
  unfold traced at hb ⊢
  cases hp : y.pipeFds with
  | none => simp [openPipe, hp]
  | some p =>
    simp only [openPipe, hp] at hb ⊢
    cases hpid : y.pid with
    | none => simp [startChild, hpid, closePipe]
    | some i =>
      have hc := hf.2 i hpid
      simp only [startChild, hpid] at hb ⊢
      split_ifs at hb ⊢ with h
      · rcases h with h | h <;> rw [h] at hb <;> exact hb.elim
      · simp only [closePipe]
        unfold parent at h ⊢
        rw [hi] at h ⊢
        simp only [Bool.false_eq_true, if_false] at h ⊢
        cases hch : child cap f with
        | exited q => simp only [parent.ended]; exact Finset.erase_insert hc
        | signalled sig => simp only [parent.ended]; exact Finset.erase_insert hc
        | blocked => rw [hch] at h; simp at h
        | escaped => rw [hch] at h; simp at h

/-- A child ended by a signal has been waited for. -/
example : (traced 65536 4 good (.signalled 11) busy).2.children = {50} :=
  C170_children_partial _ _ _ _ _ good_fresh (by
    have : (traced 65536 4 good (.signalled 11) busy).1 = .done (.threwSignal 11) := by decide +kernel
    rw [this]; trivial) rfl

/-- C170 is violated: if a signal interrupts `waitpid`, the call returns the result as if nothing had happened, but the
child is never waited for. -/
theorem C170_interrupted_violated (cap sizeofRet a b i : Nat) (y : Sys) (bytes : List Byte) (w : World) (hf : y.Fresh w)
    (h1 : y.pipeFds = some (a, b)) (h2 : y.pid = some i) (h3 : y.interrupted = true) (hl : bytes.length = sizeofRet)
    (h0 : 0 < sizeofRet) (h4 : sizeofRet < 2^64) :
    (traced cap sizeofRet y (.returns bytes) w).1 = .done (.returned bytes) ∧ i ∉ w.children ∧
      i ∈ (traced cap sizeofRet y (.returns bytes) w).2.children := by
  have hr : readResult sizeofRet (stream (.returns bytes)) = .returned bytes := by
    rw [stream, readResult_eq sizeofRet 1 bytes (by omega), if_pos rfl]
    have : read bytes sizeofRet = some (bytes, []) := by
      have := read_append bytes [] (by intro h; rw [h] at hl; simp at hl; omega)
      rwa [List.append_nil, hl] at this
    rw [this]
    simp [hl]
  have hp : ∀ w, parent cap sizeofRet y (.returns bytes) i w = (.returned bytes,
      { w with out := w.out ++ w.buffer ++ y.status ++ flushed (.returns bytes) y w, buffer := [] }) := by
    intro w
    unfold parent
    rw [h3, if_pos rfl, hr]
  simp only [traced, openPipe, startChild, h1, h2, hp]
  rw [if_neg (by simp)]
  exact ⟨rfl, hf.2 i h2, by simp [closePipe]⟩

/-- The result is there, and child 77 as well. -/
example : (traced 65536 2 { good with interrupted := true } (.returns [7, 8]) busy).1 = .done (.returned [7, 8]) ∧
    77 ∈ (traced 65536 2 { good with interrupted := true } (.returns [7, 8]) busy).2.children :=
  have h := C170_interrupted_violated 65536 2 3 4 77 { good with interrupted := true } [7, 8] busy good_fresh rfl rfl rfl rfl
    (by decide) (by decide)
  ⟨h.1, h.2.2⟩

/-- C170. Whether `waitpid` is interrupted makes no difference to the outcome of a call whose function returns a value or
throws a message that fit into pipe and buffer: the value is returned, the message is thrown. -/
theorem C170_outcome (cap sizeofRet a b i : Nat) (y : Sys) (f : Child) (w : World) (h1 : y.pipeFds = some (a, b))
    (h2 : y.pid = some i) (hc : 109 ≤ cap) (h0 : 0 < sizeofRet) (hs : 9 + sizeofRet ≤ cap) (h64 : sizeofRet < 2^64)
    (hf : (∃ b, f = .returns b ∧ b.length = sizeofRet) ∨ ∃ m, f = .throwsStd m ∧ m.length ≤ 100) :
    (traced cap sizeofRet y f w).1 = match f with
      | .returns b => .done (.returned b)
      | .throwsStd m => .done (.threw m)
      | _ => .noFork := by
  have key : ∀ w, (parent cap sizeofRet y f i w).1 = safeCall cap sizeofRet f := by
    intro w
    have hch : child cap f = .exited (stream f) := by
      rcases hf with ⟨b, rfl, hb⟩ | ⟨m, rfl, hm⟩
      · rw [child, writeResult_some cap ⟨true, b⟩ (by simp only; omega)]
        simp only [stream, if_true]
      · rw [child, writeResult_some cap ⟨false, m⟩ (by simp only; omega)]
        simp only [stream, Bool.false_eq_true, if_false]
    unfold parent safeCall
    rw [hch]
    cases y.interrupted <;> simp
  have hr := C99_comes_back_partial cap sizeofRet f hc h0 hs h64 (by
    rcases hf with h | h
    · exact .inl h
    · exact .inr (.inl h))
  simp only [traced, openPipe, startChild, h1, h2, key, hr]
  rcases hf with ⟨b, rfl, hb⟩ | ⟨m, rfl, hm⟩ <;> simp

/-- An interrupted call still throws what the function has thrown. -/
example : (traced 65536 4 { good with interrupted := true } (.throwsStd [1, 2, 3]) busy).1 = .done (.threw [1, 2, 3]) :=
  C170_outcome 65536 4 3 4 77 _ _ _ rfl rfl (by decide) (by decide) (by decide) (by decide) (.inr ⟨_, rfl, by decide⟩)

theorem readResult_no_signal (sizeofRet : Nat) (q : Pipe) (sig : Nat) : readResult sizeofRet q ≠ .threwSignal sig := by
  unfold readResult
  dsimp only
  repeat' split
  all_goals simp

/-- C170. With nothing in the buffer, what the function has printed comes out once, before the line about the end of the
child; if the child is ended by a signal what it has not flushed is lost. Missing: text in the buffer. -/
theorem C170_output_partial (cap sizeofRet : Nat) (y : Sys) (f : Child) (w : World) (hi : y.interrupted = false)
    (hb : (traced cap sizeofRet y f w).1.Back) (hw : w.buffer = []) :
    (traced cap sizeofRet y f w).2.out =
      match (traced cap sizeofRet y f w).1 with
      | .noPipe => w.out
      | .noFork => w.out
      | .done (.threwSignal _) => w.out ++ y.status
      | .done _ => w.out ++ y.printed ++ y.status := by
  unfold traced at hb ⊢
  cases hp : y.pipeFds with
  | none => simp [openPipe, hp]
  | some p =>
    simp only [openPipe, hp] at hb ⊢
    cases hpid : y.pid with
    | none => simp [startChild, hpid, closePipe]
    | some i =>
      simp only [startChild, hpid] at hb ⊢
      split_ifs at hb ⊢ with h
      · rcases h with h | h <;> rw [h] at hb <;> exact hb.elim
      · simp only [closePipe]
        unfold parent at h ⊢
        rw [hi] at h ⊢
        simp only [Bool.false_eq_true, if_false] at h ⊢
        cases hch : child cap f with
        | signalled sig =>
          have hf : f = .signalled sig := by
            cases f with
            | returns b => simp only [child] at hch; split at hch <;> simp at hch
            | throwsStd b => simp only [child] at hch; split at hch <;> simp at hch
            | signalled g => simp only [child, Ended.signalled.injEq] at hch; rw [hch]
            | _ => simp [child] at hch
          subst hf
          simp [parent.ended, flushed, hw]
        | blocked => rw [hch] at h; simp at h
        | escaped => rw [hch] at h; simp at h
        | exited q =>
          rw [hch] at h
          have hn : ∀ sig, readResult sizeofRet q ≠ .threwSignal sig := readResult_no_signal sizeofRet q
          have hfl : ∀ v : World, flushed f y v = v.buffer ++ y.printed := by
            intro v
            cases f with
            | returns b => rfl
            | throwsStd b => rfl
            | exits c => rfl
            | _ => simp [child] at hch
          simp only [parent.ended, hfl, hw, List.nil_append, List.append_nil]

/-- "hi", and then the line. -/
example : (traced 65536 2 good (.throwsStd [7]) { busy with buffer := [] }).2.out = ['h', 'i', '.'] := by
  have h : (traced 65536 2 good (.throwsStd [7]) { busy with buffer := [] }).1 = .done (.threw [7]) := by decide +kernel
  have := C170_output_partial 65536 2 good (.throwsStd [7]) { busy with buffer := [] } rfl (by rw [h]; trivial) rfl
  rw [h] at this
  exact this

/-- C170 is violated: text printed but not yet flushed before a call comes out twice, whatever the function returns. -/
theorem C170_output_twice_violated (cap sizeofRet a b i : Nat) (y : Sys) (bytes : List Byte) (w : World)
    (h1 : y.pipeFds = some (a, b)) (h2 : y.pid = some i) (h3 : y.interrupted = false) (hl : bytes.length = sizeofRet)
    (h0 : 0 < sizeofRet) (h4 : sizeofRet < 2^64) (hc : 9 + sizeofRet ≤ cap) :
    (traced cap sizeofRet y (.returns bytes) w).1 = .done (.returned bytes) ∧
      (traced cap sizeofRet y (.returns bytes) w).2.out =
        w.out ++ w.buffer ++ y.printed ++ w.buffer ++ y.status := by
  have hs := C73_value_returned cap sizeofRet bytes hl (by omega) h0 h4
  have hw := writeResult_some cap ⟨true, bytes⟩ (by simpa [hl] using hc)
  rw [safeCall, child, hw] at hs
  dsimp only at hs
  have hp : ∀ w, parent cap sizeofRet y (.returns bytes) i w = (.returned bytes,
      parent.ended y (.returns bytes) i w) := by
    intro w
    unfold parent
    rw [h3, if_neg (by simp), child, hw]
    dsimp only
    rw [hs]
  simp only [traced, openPipe, startChild, h1, h2, hp]
  rw [if_neg (by simp)]
  exact ⟨rfl, by simp [closePipe, parent.ended, flushed, List.append_assoc]⟩

/-- The "a" of the caller comes out before "hi" and after it. -/
example : (traced 65536 2 good (.returns [7, 8]) busy).2.out = ['a', 'h', 'i', 'a', '.'] :=
  (C170_output_twice_violated 65536 2 3 4 77 good [7, 8] busy rfl rfl rfl rfl (by decide) (by decide) (by decide)).2

end Fork
end Verif
