import Verif.Lemmas.Branch
import Verif.Spec.Branch
import Verif.Props.ChanceRounds
import Verif.Props.Chance
/-
C167: when generators that refer to themselves through `oneOf` return.
-/
namespace Verif
namespace Recursive
open Shr Random ListLike Comb Integral IntType

/-- The probability with which the second alternative is taken. -/
theorem share_eq {w1 w2 : Dbl} {q1 q2 sh : ℚ} (hw : assignWeights [w1, w2] = .ok [.fin q1, .fin q2])
    (hq1 : 0 ≤ q1 ∧ q1 ≤ 1) (hq2 : 0 ≤ q2 ∧ q2 ≤ 1) (hsh : ChanceLimit (secondTaken w1 w2) (fun t => t.value) sh) :
    sh = accepting q2 / (accepting q1 + accepting q2) := by
  refine chanceLimit_unique hsh ?_
  have := chance_oneOf [(fun _ _ s => .ok (.leaf false, s), w1), (fun _ _ s => .ok (.leaf true, s), w2)] [q1, q2] [0, 1]
    (fun t => t.value) hw (by simpa using ⟨hq1, hq2⟩) (by simp) (by simp) (by
      intro a ha σ R s
      simp only [List.mem_cons, List.not_mem_nil, or_false] at ha
      rcases ha with rfl | rfl <;> intro h <;> cases h)
    (.cons ⟨.ret (.ok (leaf false)), ⟨trivial, fun _ _ _ => rfl⟩, rfl⟩
      (.cons ⟨.ret (.ok (leaf true)), ⟨trivial, fun _ _ _ => rfl⟩, rfl⟩ .nil))
  unfold secondTaken
  simpa using this

/-- C167. A generator of trees, each of whose nodes has `lo` to `hi` subtrees that come from the generator itself with
probability `sh` and from `base` otherwise, returns with probability one if, and only if, on average at most one of the
subtrees of a node comes from the generator itself. Missing for the claim: the other cases, `C167_violated`. -/
theorem C167_returns_partial (order : List (Fin 2)) (hnd : order.Nodup) (hall : ∀ i, i ∈ order) (g : Src (Shr Int))
    (hg : Chance g (fun _ => true) 1) (hgd : NoDiscard g) (base : Src (Shr Node)) (hbase : Chance base (fun _ => true) 1)
    (hbd : NoDiscard base) (w1 w2 : Dbl) (q1 q2 sh : ℚ) (hw : assignWeights [w1, w2] = .ok [.fin q1, .fin q2])
    (hq1 : 0 ≤ q1 ∧ q1 ≤ 1) (hq2 : 0 ≤ q2 ∧ q2 ≤ 1) (hsh : ChanceLimit (secondTaken w1 w2) (fun t => t.value) sh)
    (lo hi : Nat) (h : lo ≤ hi) (hb : hi < 2 ^ 32) :
    ChanceLimit (fun n σ R s => branchGen R order (g σ R) (base σ R) w1 w2 lo hi n s) (fun _ => true) 1 ↔
      sh * ((lo + hi) / 2) ≤ 1 := by
  have hacc1 := accepting_bounds hq1.1 hq1.2
  have hacc2 := accepting_bounds hq2.1 hq2.2
  have hc := chance_branch hnd hall g hg hgd base hbase hbd w1 w2 q1 q2 hw hq1 hq2 h hb
  rw [← share_eq hw hq1 hq2 hsh] at hc
  have hpos : 0 < accepting q1 + accepting q2 := by linarith
  have hs0 : 0 < sh := by rw [share_eq hw hq1 hq2 hsh]; exact div_pos (by linarith) hpos
  have hs1 : sh < 1 := by rw [share_eq hw hq1 hq2 hsh, div_lt_one hpos]; linarith
  have hr0 : 0 ≤ 1 - (accepting q1 + accepting q2) / (2 * 2 ^ 64) := by
    rw [sub_nonneg, div_le_one (by norm_num)]; linarith
  have hr1 : 1 - (accepting q1 + accepting q2) / (2 * 2 ^ 64) < 1 := by
    have : 0 < (accepting q1 + accepting q2) / (2 * 2 ^ 64) := div_pos hpos (by norm_num)
    linarith
  constructor
  · intro hl
    by_contra hm
    have hm := not_le.1 hm
    have hhi : 0 < (hi : ℚ) := by
      rcases Nat.eq_zero_or_pos hi with rfl | hp
      · obtain rfl : lo = 0 := by omega
        norm_num at hm
      · exact_mod_cast hp
    obtain ⟨N, hN⟩ := hl ((sh * ((lo + hi) / 2) - 1) / hi ^ 2) (div_pos (by linarith) (by positivity))
    obtain ⟨q, hq, hd⟩ := hN N le_rfl
    obtain rfl := chance_unique hq (hc N)
    have := level_bounded hr0 hr1.le hs0.le hs1.le h hm N
    have := (abs_lt.1 hd).1
    linarith
  · intro hm ε hε
    obtain ⟨N, hN⟩ := level_limit hr0 hr1 hs0 hs1 h hm ε hε
    refine ⟨N, fun n hn => ⟨_, hc n, ?_⟩⟩
    have h1 := hN n hn
    have h2 := (level_mono_step hr0 hr1.le hs0.le hs1.le h n).2.2
    rw [abs_lt]
    constructor <;> linarith

/-- C167, violated: if on average more than one subtree of a node comes from the generator itself, say `1 + d`, then
however deep the calls and long the loops may be, with a probability of at least `d/hi^2` the generator does not
return (in the code: it recurses until the stack overflows). -/
theorem C167_violated (order : List (Fin 2)) (hnd : order.Nodup) (hall : ∀ i, i ∈ order) (g : Src (Shr Int))
    (hg : Chance g (fun _ => true) 1) (hgd : NoDiscard g) (base : Src (Shr Node)) (hbase : Chance base (fun _ => true) 1)
    (hbd : NoDiscard base) (w1 w2 : Dbl) (q1 q2 sh : ℚ) (hw : assignWeights [w1, w2] = .ok [.fin q1, .fin q2])
    (hq1 : 0 ≤ q1 ∧ q1 ≤ 1) (hq2 : 0 ≤ q2 ∧ q2 ≤ 1) (hsh : ChanceLimit (secondTaken w1 w2) (fun t => t.value) sh)
    (lo hi : Nat) (h : lo ≤ hi) (hb : hi < 2 ^ 32) (hm : 1 < sh * ((lo + hi) / 2)) (n : Nat) :
    ∃ p, Chance (fun σ R s => branchGen R order (g σ R) (base σ R) w1 w2 lo hi n s) (fun _ => true) p ∧
      p ≤ 1 - (sh * ((lo + hi) / 2) - 1) / hi ^ 2 := by
  have hacc1 := accepting_bounds hq1.1 hq1.2
  have hacc2 := accepting_bounds hq2.1 hq2.2
  have hc := chance_branch hnd hall g hg hgd base hbase hbd w1 w2 q1 q2 hw hq1 hq2 h hb n
  rw [← share_eq hw hq1 hq2 hsh] at hc
  have hpos : 0 < accepting q1 + accepting q2 := by linarith
  refine ⟨_, hc, level_bounded ?_ ?_ ?_ ?_ h hm n⟩
  · rw [sub_nonneg, div_le_one (by norm_num)]; linarith
  · have : 0 < (accepting q1 + accepting q2) / (2 * 2 ^ 64) := div_pos hpos (by norm_num)
    linarith
  · rw [share_eq hw hq1 hq2 hsh]; exact div_nonneg (by linarith) hpos.le
  · rw [share_eq hw hq1 hq2 hsh, div_le_one hpos]; linarith

/-- Without weights each of the two alternatives is taken with probability 1/2. -/
theorem second_half : ChanceLimit (secondTaken (.fin 0) (.fin 0)) (fun t => t.value) (1 / 2) := by
  have := C140_even [((fun _ _ s => .ok (.leaf false, s) : Src (Shr Bool)), .fin 0), (fun _ _ s => .ok (.leaf true, s), .fin 0)]
    (by simp) (by simp) (by simp) (by
      intro a ha σ R s
      simp only [List.mem_cons, List.not_mem_nil, or_false] at ha
      rcases ha with rfl | rfl <;> intro h <;> cases h) (fun t => t.value) [0, 1]
    (.cons ⟨.ret (.ok (leaf false)), ⟨trivial, fun _ _ _ => rfl⟩, rfl⟩
      (.cons ⟨.ret (.ok (leaf true)), ⟨trivial, fun _ _ _ => rfl⟩, rfl⟩ .nil))
  norm_num at this ⊢
  exact this

/-- C167. Without weights: the generator returns with probability one if and only if a node has two subtrees on average,
or fewer. -/
theorem C167_even_partial (order : List (Fin 2)) (hnd : order.Nodup) (hall : ∀ i, i ∈ order) (g : Src (Shr Int))
    (hg : Chance g (fun _ => true) 1) (hgd : NoDiscard g) (base : Src (Shr Node)) (hbase : Chance base (fun _ => true) 1)
    (hbd : NoDiscard base) (lo hi : Nat) (h : lo ≤ hi) (hb : hi < 2 ^ 32) :
    ChanceLimit (fun n σ R s => branchGen R order (g σ R) (base σ R) (.fin 0) (.fin 0) lo hi n s) (fun _ => true) 1 ↔
      lo + hi ≤ 4 := by
  rw [C167_returns_partial order hnd hall g hg hgd base hbase hbd (.fin 0) (.fin 0) (1 / 2) (1 / 2) (1 / 2)
    (by decide +kernel) (by norm_num) (by norm_num) second_half lo hi h hb]
  constructor
  · intro hm
    have : ((lo + hi : ℕ) : ℚ) ≤ 4 := by push_cast; linarith
    exact_mod_cast this
  · intro hm
    have : ((lo + hi : ℕ) : ℚ) ≤ 4 := by exact_mod_cast hm
    push_cast at this
    linarith

/-! ### The generator of the test -/

theorem int_returns : Chance (fun _ R s => arbiInt R i32 s) (fun _ => true) 1 := by
  have hret := C138_whole_type i32 (by decide) fun _ => true
  have e1 : (boundaryValues i32).countP (fun _ => true) = (boundaryValues i32).length := by simp
  have e2 : ((Finset.Icc i32.lo i32.hi).filter fun v => (fun _ : Int => true) v = true).card = 2 ^ 32 := by
    rw [Finset.filter_true_of_mem (by simp), Int.card_Icc]
    rfl
  have e3 : ((boundaryValues i32).length : ℚ) ≠ 0 := by
    have : (boundaryValues i32).length ≠ 0 := by decide
    exact_mod_cast this
  have e4 : i32.bits = 32 := rfl
  rw [e1, e2, div_self e3, e4] at hret
  norm_num at hret
  exact hret

theorem int_noDiscard : NoDiscard (fun _ R s => arbiInt R i32 s : Src (Shr Int)) := by
  intro σ R s h
  obtain ⟨t, s', e, -⟩ := C20_arbi R i32 (by decide) s
  dsimp only at h
  rw [e] at h
  cases h

theorem branch1_returns (order : List (Fin 2)) (hnd : order.Nodup) (hall : ∀ i, i ∈ order) :
    Chance (fun _ R s => branch1Gen R order s) (fun _ => true) 1 ∧ NoDiscard (fun _ R s => branch1Gen R order s : Src (Shr Node)) := by
  constructor
  · have hl := chance_construct (A := fun _ : Fin 1 => Int) [0] (by decide) (by decide) (fun _ _ R s => arbiInt R i32 s)
      (fun a => Node.node (a 0) []) (fun _ => 1) (fun _ => int_returns)
    have := chance_nodeOf hnd hall int_returns (chance_vector hl (lo := 1) (hi := 2) (by norm_num) (by norm_num))
    norm_num at this
    exact this
  · intro σ R s
    exact nodeOf_ne (int_noDiscard σ R) (arbiVector_ne (construct_ne (fun _ => int_noDiscard σ R) _ _) (by norm_num) (by norm_num)) s

/-- The generator of the test, test_combinator2.cpp:456-469, with sizes 1 to 2, returns with probability one; it also
would with sizes 0 to 4, but not with 2 to 3. -/
example (order : List (Fin 2)) (hnd : order.Nodup) (hall : ∀ i, i ∈ order) :
    ChanceLimit (fun n _ R s => branchGen R order (arbiInt R i32) (branch1Gen R order) (.fin 0) (.fin 0) 1 2 n s)
      (fun _ => true) 1 ∧
    ChanceLimit (fun n _ R s => branchGen R order (arbiInt R i32) (branch1Gen R order) (.fin 0) (.fin 0) 0 4 n s)
      (fun _ => true) 1 ∧
    ¬ ChanceLimit (fun n _ R s => branchGen R order (arbiInt R i32) (branch1Gen R order) (.fin 0) (.fin 0) 2 3 n s)
      (fun _ => true) 1 := by
  have hb := branch1_returns order hnd hall
  have key := C167_even_partial order hnd hall _ int_returns int_noDiscard _ hb.1 hb.2
  exact ⟨(key 1 2 (by omega) (by norm_num)).2 (by omega), (key 0 4 (by omega) (by norm_num)).2 (by omega),
    fun h => absurd ((key 2 3 (by omega) (by norm_num)).1 h) (by omega)⟩

/-- With sizes 2 to 3 it does not return in at least one of 36 calls, and with the default sizes of vectors, 0 to 200, in
at least one of 817. -/
example (n : Nat) :
    (∃ p, Chance (fun _ R s => branchGen R [0, 1] (arbiInt R i32) (branch1Gen R [0, 1]) (.fin 0) (.fin 0) 2 3 n s)
      (fun _ => true) p ∧ p ≤ 35 / 36) ∧
    ∃ p, Chance (fun _ R s => branchGen R [0, 1] (arbiInt R i32) (branch1Gen R [0, 1]) (.fin 0) (.fin 0) 0 200 n s)
      (fun _ => true) p ∧ p ≤ 816 / 817 := by
  have hb := branch1_returns [0, 1] (by decide) (by decide)
  have key := C167_violated [0, 1] (by decide) (by decide) _ int_returns int_noDiscard _ hb.1 hb.2 (.fin 0) (.fin 0)
    (1 / 2) (1 / 2) (1 / 2) (by decide +kernel) (by norm_num) (by norm_num) second_half
  obtain ⟨p, h1, h2⟩ := key 2 3 (by omega) (by norm_num) (by norm_num) n
  obtain ⟨p', h1', h2'⟩ := key 0 200 (by omega) (by norm_num) (by norm_num) n
  exact ⟨⟨p, h1, h2.trans (by norm_num)⟩, p', h1', h2'.trans (by norm_num)⟩

end Recursive
end Verif
