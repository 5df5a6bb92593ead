import Mathlib.Tactic.SplitIfs
import Verif.Model.Fork
/-
C73, C99 and C100: calls in a forked process.
-/
namespace Verif
namespace Fork

theorem encode_length (k n : Nat) : (encode k n).length = k := by
  induction k generalizing n with
  | zero => rfl
  | succ k ih => simp [encode, ih]

theorem decode_encode (k n : Nat) : decode (encode k n) = n % 256 ^ k := by
  induction k generalizing n with
  | zero => simp [encode, decode, Nat.mod_one]
  | succ k ih =>
    simp only [encode, decode, ih]
    rw [Nat.pow_succ', Nat.mod_mul]

theorem writeResult_some (cap : Nat) (r : PipeResult) (h : 9 + r.data.length ≤ cap) :
    writeResult cap [] r = some ((if r.success then 1 else 0) :: (encode 8 r.data.length ++ r.data)) := by
  simp only [writeResult, write, List.length_nil, List.length_cons, Option.bind_eq_bind, List.nil_append]
  rw [if_pos (by omega)]
  simp only [Option.bind_some, List.length_singleton, encode_length]
  rw [if_pos (by omega)]
  simp only [Option.bind_some, List.length_append, List.length_singleton, encode_length]
  rw [if_pos (by omega)]
  simp

theorem writeResult_none (cap : Nat) (r : PipeResult) (h : cap < 9 + r.data.length) :
    writeResult cap [] r = none := by
  unfold writeResult
  generalize (if r.success then (1 : Byte) else 0) = b
  by_cases h1 : 1 ≤ cap
  · by_cases h2 : 9 ≤ cap
    · simp [write, encode_length, h1, h2, show ¬ 9 + r.data.length ≤ cap by omega]
    · simp [write, encode_length, h1, h2]
  · simp [write, h1]

theorem read_append (a b : List Byte) (h : a ≠ []) : read (a ++ b) a.length = some (a, b) := by
  unfold read
  rw [if_neg (by simpa using h), if_neg (by simp [h])]
  simp

theorem readResult_eq (sizeofRet : Nat) (b : Byte) (data : List Byte) (hd : data.length < 2^64) :
    readResult sizeofRet (b :: (encode 8 data.length ++ data)) =
      if b = 1 then
        match read data sizeofRet with
        | none => .hangs
        | some (ret, _) => if ret.length = sizeofRet then .returned ret else .ub
      else if data.length ≤ bufSize then .threw data else .ub := by
  have h1 : read (b :: (encode 8 data.length ++ data)) 1 = some ([b], encode 8 data.length ++ data) :=
    read_append [b] _ (by simp)
  have h2 : read (encode 8 data.length ++ data) 8 = some (encode 8 data.length, data) := by
    have := read_append (encode 8 data.length) data (by
      intro h; have := encode_length 8 data.length; rw [h] at this; cases this)
    rwa [encode_length] at this
  have h3 : decode (encode 8 data.length) = data.length := by
    rw [decode_encode]; exact Nat.mod_eq_of_lt (by rw [show (256 : Nat) ^ 8 = 2 ^ 64 by decide]; exact hd)
  unfold readResult
  rw [h1]
  simp only [h2, h3]
  by_cases hb : b = 1
  · subst hb
    simp only [if_true]
    rcases read data sizeofRet with _ | ⟨a, b⟩ <;> rfl
  · rw [if_neg (by simpa using hb), if_neg hb]
    split_ifs with hs
    · have h4 : read data data.length = some (data, []) := by
        unfold read
        split_ifs with h5 h6
        · rw [List.length_eq_zero_iff.mp h5]
        · simp [h6] at h5
        · simp
      rw [h4]; simp
    · rfl

/-- C73 is violated: a message of more than 100 bytes (that fits into the pipe) overflows the buffer. -/
theorem C73_long_message_violated (cap sizeofRet : Nat) (msg : List Byte) (h1 : 100 < msg.length)
    (h2 : 9 + msg.length ≤ cap) (h3 : msg.length < 2^64) : safeCall cap sizeofRet (.throwsStd msg) = .ub := by
  simp only [safeCall, child]
  rw [writeResult_some cap ⟨false, msg⟩ h2]
  simp only [Bool.false_eq_true, if_false]
  rw [readResult_eq sizeofRet 0 msg h3, if_neg (by decide), if_neg (by simp [bufSize]; omega)]

example : safeCall 65536 4 (.throwsStd (List.replicate 101 65)) = .ub :=
  C73_long_message_violated _ _ _ (by rw [List.length_replicate]; omega) (by rw [List.length_replicate]; omega)
    (by rw [List.length_replicate]; omega)

/-- C73, as far as it holds: a message of at most 100 bytes is reported unchanged, for a pipe of at least 109 bytes.
Missing: longer messages. -/
theorem C73_message_partial (cap sizeofRet : Nat) (msg : List Byte) (h1 : msg.length ≤ 100) (h2 : 109 ≤ cap) :
    safeCall cap sizeofRet (.throwsStd msg) = .threw msg := by
  simp only [safeCall, child]
  rw [writeResult_some cap ⟨false, msg⟩ (by simp; omega)]
  simp only [Bool.false_eq_true, if_false]
  rw [readResult_eq sizeofRet 0 msg (by omega), if_neg (by decide), if_pos (by simp [bufSize]; omega)]

example : safeCall 65536 4 (.throwsStd [69, 114, 114]) = .threw [69, 114, 114] := by decide

/-- C73, returned values: the bytes of the value returned in the child are returned in the parent, if they fit into the
pipe. -/
theorem C73_value_returned (cap sizeofRet : Nat) (bytes : List Byte) (h1 : bytes.length = sizeofRet)
    (h2 : 9 + bytes.length ≤ cap) (h3 : 0 < sizeofRet) (h4 : sizeofRet < 2^64) :
    safeCall cap sizeofRet (.returns bytes) = .returned bytes := by
  simp only [safeCall, child]
  rw [writeResult_some cap ⟨true, bytes⟩ h2]
  simp only [if_true]
  rw [readResult_eq sizeofRet 1 bytes (by omega), if_pos rfl]
  have : read bytes sizeofRet = some (bytes, []) := by
    have := read_append bytes [] (by intro h; rw [h] at h1; simp at h1; omega)
    rwa [List.append_nil, h1] at this
  rw [this]
  simp [h1]

example : safeCall 65536 4 (.returns [5, 0, 0, 0]) = .returned [5, 0, 0, 0] := by decide

/-- C99 is violated: the caller waits for ever if the result does not fit into the pipe, be it a value or a message. -/
theorem C99_large_result_hangs_violated (cap sizeofRet : Nat) (data : List Byte) (h : cap < 9 + data.length) :
    safeCall cap sizeofRet (.returns data) = .hangs ∧ safeCall cap sizeofRet (.throwsStd data) = .hangs := by
  simp only [safeCall, child]
  rw [writeResult_none cap ⟨true, data⟩ h, writeResult_none cap ⟨false, data⟩ h]
  exact ⟨rfl, rfl⟩

/-- C99 is violated: the caller waits for ever if the function ends the child process by `exit`. -/
theorem C99_exit_hangs_violated (cap sizeofRet code : Nat) : safeCall cap sizeofRet (.exits code) = .hangs := by
  simp [safeCall, child, readResult, read]

/-- C99, as far as it holds: the caller comes back, and the outcome is defined, if the function returns a value or throws a
message that fit into pipe and buffer, or is ended by a signal; the signal is reported. Missing: the other cases. -/
theorem C99_comes_back_partial (cap sizeofRet : Nat) (f : Child) (hc : 109 ≤ cap) (h0 : 0 < sizeofRet)
    (hs : 9 + sizeofRet ≤ cap) (h64 : sizeofRet < 2^64)
    (hf : (∃ b, f = .returns b ∧ b.length = sizeofRet) ∨ (∃ m, f = .throwsStd m ∧ m.length ≤ 100) ∨
      ∃ g, f = .signalled g) :
    safeCall cap sizeofRet f = match f with
      | .returns b => .returned b
      | .throwsStd m => .threw m
      | .signalled g => .threwSignal g
      | _ => .hangs := by
  rcases hf with ⟨b, rfl, h⟩ | ⟨m, rfl, h⟩ | ⟨g, rfl⟩
  · exact C73_value_returned cap sizeofRet b h (by omega) h0 h64
  · exact C73_message_partial cap sizeofRet m h hc
  · rfl

example : safeCall 65536 4 (.returns (List.replicate 65528 0)) = .hangs :=
  (C99_large_result_hangs_violated _ _ _ (by rw [List.length_replicate]; omega)).1
example : safeCall 65536 4 (.signalled 11) = .threwSignal 11 := by decide

/-- C100 is violated: an exception that is no `std::exception` leaves `safeCall` in the child process, too, which then
executes the code of the caller, while the parent waits for it. -/
theorem C100_child_escapes_violated (cap sizeofRet : Nat) :
    child cap .throwsOther = .escaped ∧ safeCall cap sizeofRet .throwsOther = .hangs := ⟨rfl, rfl⟩

/-- C100, as far as it holds: in all other cases the child process does not leave `safeCall`.
Missing: exceptions that are no `std::exception`. -/
theorem C100_child_ends_partial (cap : Nat) (f : Child) (h : f ≠ .throwsOther) : child cap f ≠ .escaped := by
  unfold child
  split
  · split <;> simp
  · split <;> simp
  · contradiction
  · simp
  · simp
  · simp

example : child 65536 (.throwsStd [1, 2]) = .exited [0, 2, 0, 0, 0, 0, 0, 0, 0, 1, 2] := by decide

end Fork
end Verif
