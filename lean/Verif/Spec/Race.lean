import Mathlib.Data.Fin.Basic
/-!
Data races, as in the C++ memory model: two accesses of different threads to the same memory that is not atomic, at least
one of them a write, of which neither happens before the other. Here all accesses are writes.
-/
namespace Verif
namespace Race
variable {N : Nat} {L : Type}

/-- What a thread does that matters for data races. -/
inductive Kind (L : Type) where
  /-- reads and writes the atomic counter (in one step, sequentially consistent) -/
  | sync
  /-- writes the location, which is not atomic -/
  | write (loc : L)
deriving DecidableEq

/-- What the threads did, in the order in which they did it. -/
abbrev Trace (N : Nat) (L : Type) := List (Fin N × Kind L)

/-- Happens before, for the positions of a trace: a thread's own order; an access of the counter that reads what another
one has written (the accesses are read-modify-write, so each reads from its predecessor); and what follows from these. -/
inductive HappensBefore (tr : Trace N L) : Nat → Nat → Prop
  | own {i j : Nat} {t : Fin N} {k k' : Kind L} : i < j → tr[i]? = some (t, k) → tr[j]? = some (t, k') →
      HappensBefore tr i j
  | sync {i j : Nat} {t u : Fin N} : i < j → tr[i]? = some (t, .sync) → tr[j]? = some (u, .sync) → HappensBefore tr i j
  | trans {i j k : Nat} : HappensBefore tr i j → HappensBefore tr j k → HappensBefore tr i k

/-- There is a data race at the location. -/
def DataRace (tr : Trace N L) (loc : L) : Prop :=
  ∃ i j t u, t ≠ u ∧ tr[i]? = some (t, .write loc) ∧ tr[j]? = some (u, .write loc) ∧
    ¬ HappensBefore tr i j ∧ ¬ HappensBefore tr j i

end Race
end Verif
