import Verif.Props.Combinator
import Verif.Props.OneOf
import Verif.Props.Containers
import Verif.Props.Context
import Verif.Props.UnicodeText
import Verif.Props.Integral
import Verif.Props.Stateful
/-
C31, C34, C42, C62, C65, C74-C77, C85, C86, C91-C94: the faults shown by single cases elsewhere, for all inputs that show them.
-/
namespace Verif
open Shr
variable {σ α β : Type}

/-! ### C31 -/

section
open Containers BinSearch

/-- C31 is violated by all candidates that remove characters at the front: each shrink offered for such a candidate, at
whatever depth, is longer than what it is offered for. -/
theorem C31_front_longer_violated (str : List α) (minSize : Nat) (hm : minSize ≤ str.length) (c s d : Shr (List α))
    (hc : c ∈ shrinkFront minSize str) (hs : Desc c s) (hd : d ∈ s.shrinks) :
    c ∈ (shrinkString str minSize).shrinks ∧ s.value.length < d.value.length := by
  constructor
  · unfold shrinkString
    rw [shrinks_concat]
    have e : (shrinkRear str minSize).value = str := by
      simp only [shrinkRear, value_map, bsNat_value]
      rw [List.take_of_length_le]; omega
    rw [e]
    exact List.mem_append_right _ hc
  · unfold shrinkFront at hc
    split at hc
    · simp at hc
    · have h1 : Desc ((bsNat (str.length - minSize)).map fun value =>
          (str.drop (minSize + value)).take (str.length - (minSize + value))) s := .step hc hs
      obtain ⟨u, hu, rfl⟩ := desc_map.mp h1
      rw [shrinks_map] at hd
      obtain ⟨v, hv, rfl⟩ := List.mem_map.mp hd
      obtain ⟨h2, h3⟩ := bsNat_desc _ hu
      have := h3 v hv
      simp only [value_map, List.length_take, List.length_drop]
      omega

/-- "abcd": the candidate "cd" is offered, and for it "bcd" -/
example : ∃ c ∈ shrinkFront 0 ['a', 'b', 'c', 'd'], c.value = ['c', 'd'] ∧
    c.shrinks.map Shr.value = [['b', 'c', 'd']] := ⟨_, List.mem_of_getElem? (i := 1) rfl, rfl, rfl⟩

end

/-! ### C34 -/

section
open Comb Integral Random IntType

private theorem sumWeights_nan : ∀ (ws : List Dbl) (sum : Dbl) (n : Nat)
    (_ : ∀ w ∈ ws, w = .nan ∨ ∃ q, w = .fin q ∧ 0 ≤ q ∧ q ≤ 1) (_ : sum = .nan ∨ Dbl.nan ∈ ws),
    ∃ m, sumWeights ws sum n = .ok (.nan, m)
  | [], sum, n, _, h => by
    rcases h with rfl | h
    · exact ⟨n, rfl⟩
    · simp at h
  | w :: ws, sum, n, hw, h => by
    have h1 : (w.lt (.fin 0) || (Dbl.fin 1).lt w) = false := by
      rcases hw w (by simp) with rfl | ⟨q, rfl, h0, h1⟩
      · rfl
      · simp only [Dbl.lt, Bool.or_eq_false_iff, decide_eq_false_iff_not, not_lt]
        exact ⟨h0, h1⟩
    rw [sumWeights, h1]
    simp only [Bool.false_eq_true, if_false]
    refine sumWeights_nan ws _ _ (fun v hv => hw v (by simp [hv])) ?_
    rcases h with rfl | h
    · left; cases w <;> rfl
    · rcases List.mem_cons.mp h with rfl | h
      · left; cases sum <;> rfl
      · exact Or.inr h

/-- C34 is violated by every list of weights that contains NaN, the others being in [0,1]: it is accepted, whatever the
sum of the others (also if it exceeds 1), and left as it is; weights that are not given are not filled in. -/
theorem C34_any_nan_violated (gens : List (Weighted σ α))
    (h : ∀ g ∈ gens, g.weight = .nan ∨ ∃ q, g.weight = .fin q ∧ 0 ≤ q ∧ q ≤ 1) (hn : ∃ g ∈ gens, g.weight = .nan) :
    oneOf gens = .ok gens := by
  obtain ⟨g, hg, hgn⟩ := hn
  obtain ⟨m, hm⟩ := sumWeights_nan (gens.map (·.weight)) (.fin 0) 0
    (fun w hw => by obtain ⟨g, hg, rfl⟩ := List.mem_map.mp hw; exact h g hg)
    (Or.inr (List.mem_map.mpr ⟨g, hg, hgn⟩))
  have e : ∀ gs : List (Weighted σ α),
      List.zipWith (fun g w => { g with weight := w }) gs (gs.map (·.weight)) = gs := by
    intro gs
    induction gs with
    | nil => rfl
    | cons a l ih => simp [ih]
  unfold oneOf assignWeights
  rw [hm]
  simp [Dbl.lt, e]

/-- C34: choosing the alternative whose weight is NaN is undefined behaviour. -/
theorem C34_nan_chosen_violated (R : Rng σ) (gens : List (Weighted σ α)) (s s1 : σ) (k : Int) (w : Weighted σ α)
    (fuel : Nat) (hk : getRandomSize R 0 gens.length s = .ok (k, s1)) (hw : gens[k.toNat]? = some w)
    (hn : w.weight = .nan) : oneOfLoop R gens (fuel + 1) s = .ub := by
  rw [oneOfLoop, hk]
  simp only [Outcome.ok_bind, hw, hn]
  rfl

example : oneOf [({ gen := just 1, weight := .fin 1 } : Weighted (List Int) Nat), { gen := just 2, weight := .nan },
      { gen := just 3, weight := .fin (1/2) }, { gen := just 4, weight := .fin 0 }] =
    .ok [{ gen := just 1, weight := .fin 1 }, { gen := just 2, weight := .nan },
      { gen := just 3, weight := .fin (1/2) }, { gen := just 4, weight := .fin 0 }] ∧
    oneOfLoop script [({ gen := just 1, weight := .fin 1 } : Weighted (List Int) Nat),
      { gen := just 2, weight := .nan }] 5 [1] = .ub := by
  refine ⟨C34_any_nan_violated _ ?_ ⟨_, List.mem_of_getElem? (i := 1) rfl, rfl⟩, rfl⟩
  intro g hg
  simp only [List.mem_cons, List.not_mem_nil, or_false] at hg
  rcases hg with rfl | rfl | rfl | rfl
  · exact Or.inr ⟨1, rfl, by norm_num, by norm_num⟩
  · exact Or.inl rfl
  · exact Or.inr ⟨1/2, rfl, by norm_num, by norm_num⟩
  · exact Or.inr ⟨0, rfl, by norm_num, by norm_num⟩

/-! ### C42 -/

/-- C42 is violated by every element generator that cannot make some value made by the default `Arbi<T>`: where the
latter makes it, the pointer or nullable holds it. -/
theorem C42_not_from_elemGen_violated (R : Rng σ) (arbi elemGen : Gen σ α) (s s' : σ) (t : Shr α) (v : α)
    (ht : arbi s = .ok (t, s')) (hv : Reach t v) (hn : ¬ ∃ t', elemGen.Makes t' ∧ Reach t' v) :
    (∃ r, arbiSharedPtr arbi elemGen s = .ok (r, s') ∧ Reach r v ∧ ¬ ∃ t', elemGen.Makes t' ∧ Reach t' v) ∧
    ∀ s0 : σ, getRandomBool R (some 17524406870024073216) s0 = (true, s) →
      ∃ r, arbiNullable R arbi elemGen s0 = .ok (r, s') ∧ Reach r (some v) := by
  refine ⟨⟨t.map id, ?_, ?_, hn⟩, fun s0 h0 => ?_⟩
  · unfold arbiSharedPtr; rw [ht]; rfl
  · rw [reach_map]; exact ⟨v, hv, rfl⟩
  · refine ⟨t.mapShrinkable (fun shr => leaf (some shr.value)), ?_, ?_⟩
    · unfold arbiNullable; rw [h0]; simp only [if_true]; rw [ht]; rfl
    · have e : ∀ t : Shr α, t.mapShrinkable (fun shr => leaf (some shr.value)) = t.map some := by
        intro t
        induction t using Shr.ind with
        | h v ss ih =>
          simp only [mapShrinkable, withShrinks, mapShrinkableList_eq, map_node, value_node, leaf]
          congr 1
          exact List.map_congr_left ih
      rw [e, reach_map]
      exact ⟨v, hv, rfl⟩

example : ∃ t s', arbiInt script IntType.u8 [2 ^ 64 - 1, 7] = .ok (t, s') ∧ t.value = 7 ∧
    ¬ ∃ t', Gen.Makes (σ := List Int) (just (1 : Int)) t' ∧ Reach t' 7 := by
  refine ⟨_, _, rfl, rfl, ?_⟩
  rintro ⟨t', ⟨s, s', h⟩, hv⟩
  cases h
  exact absurd (reach_leaf.mp hv) (by decide)

/-! ### C77 -/

/-- C77, exactly when it is violated: `Arbi<bool>` with probability 0 yields `true` iff the 64-bit draw is 0. -/
theorem C77_bool_iff_violated (R : Rng σ) (s : σ) :
    ∃ t s', arbiBool R (some 0) s = .ok (t, s') ∧ (t.value = true ↔ (next8U R s).1 = 0) := by
  have hm := R.draw_mem s 0 (2^64 - 1) (by omega)
  refine ⟨shrinkBool (decide ((R.draw s 0 (2^64 - 1)).1 ≤ ((0 : Nat) : Int))), (R.draw s 0 (2^64 - 1)).2, rfl, ?_⟩
  unfold next8U
  by_cases h : (R.draw s 0 (2^64 - 1)).1 ≤ ((0 : Nat) : Int)
  · rw [decide_eq_true h]
    exact ⟨fun _ => by show (R.draw s 0 (2^64 - 1)).1 = 0; omega, fun _ => rfl⟩
  · rw [decide_eq_false h]
    refine ⟨fun h' => (by cases h'), fun h' => ?_⟩
    have : (R.draw s 0 (2^64 - 1)).1 = 0 := h'
    omega

example : (next8U script [0]).1 = 0 ∧ (next8U script [17]).1 ≠ 0 := by decide

/-! ### C85 -/

private theorem greedyList_none {γ : Type} (fails : γ → Bool) (v : γ) :
    ∀ (ss : List (Shr γ)) (_ : ∀ c ∈ ss, fails c.value = false), greedyList fails v ss = v
  | [], _ => by rw [greedyList]
  | c :: cs, h => by
    rw [greedyList, h c (by simp)]
    exact greedyList_none fails v cs fun d hd => h d (by simp [hd])

private theorem lazyMapList_roots (gen2gen : α → Gen σ β) (o : List Nat → σ) (p : List Nat) : ∀ {i : Nat}
    (ss : List (Shr α)), ∀ x ∈ lazyMapList (inter gen2gen) o p i ss, ∃ c ∈ ss, x.value.1 = c.value
  | _, [], x, hx => by simp [lazyMapList] at hx
  | i, s :: ss, x, hx => by
    rw [lazyMapList] at hx
    cases hs : lazyMap (inter gen2gen) o (i :: p) s with
    | none => simp [hs] at hx
    | some y =>
      simp only [hs, List.mem_cons] at hx
      rcases hx with rfl | hx
      · refine ⟨s, by simp, ?_⟩
        cases s with
        | node v l =>
          rw [lazyMap] at hs
          cases hi : inter gen2gen v (o (i :: p)) with
          | ok b =>
            simp only [hi, Option.some.injEq] at hs
            subst hs
            exact (inter_eq hi).1
          | _ => simp [hi] at hs
      · obtain ⟨c, hc, h⟩ := lazyMapList_roots gen2gen o p ss x hx
        exact ⟨c, by simp [hc], h⟩

/-- C85 is violated whenever the first component has shrinks and the property holds for all pairs with one of these: then
shrinking stops at once, and the second component stays as generated whatever simpler values of it would fail. -/
theorem C85_second_stuck_violated (gen1 : Gen σ α) (gen2gen : α → Gen σ β) (o : List Nat → σ) (s s1 s2 : σ)
    (t : Shr α) (u : Shr β) (h1 : gen1 s = .ok (t, s1)) (h2 : gen2gen t.value s1 = .ok (u, s2))
    (hne : t.shrinks ≠ []) (htot : ∀ c ∈ t.shrinks, ∀ s', ∃ r, gen2gen c.value s' = .ok r)
    (fails : α × β → Bool) (hp : ∀ c ∈ t.shrinks, ∀ b, fails (c.value, b) = false) :
    ∃ r s3, dependency gen1 gen2gen o s = .ok (r, s3) ∧ r.greedy fails = (t.value, u.value) := by
  obtain ⟨c, cs, hc⟩ : ∃ c cs, t.shrinks = c :: cs := by
    cases h : t.shrinks with
    | nil => exact absurd h hne
    | cons c cs => exact ⟨c, cs, rfl⟩
  have hl : lazyMapList (inter gen2gen) o [] 0 t.shrinks ≠ [] := by
    obtain ⟨⟨w, s'⟩, hw⟩ := htot c (by rw [hc]; simp) (o [0])
    rw [hc, lazyMapList]
    have hi : inter gen2gen c.value (o [0]) = .ok (c.value, w) := by unfold inter; rw [hw]; rfl
    rw [← eta c, lazyMap, hi]
    simp
  obtain ⟨s3, h3⟩ := peek_total (ss := t.shrinks) (s := s2) fun c hc => htot c (List.mem_of_mem_head? hc) s2
  refine ⟨_, s3, by unfold dependency dependent; rw [h1]; simp only [Outcome.ok_bind]; rw [h2]; simp only [Outcome.ok_bind]; rw [h3]; rfl, ?_⟩
  rw [andThen]
  simp only [List.isEmpty_iff, hl, if_false]
  rw [flatMap_eq_map, map_node, greedy]
  refine greedyList_none _ _ _ fun d hd => ?_
  obtain ⟨d1, hd1, rfl⟩ := List.mem_map.mp hd
  rw [andThenList_eq] at hd1
  obtain ⟨d2, hd2, rfl⟩ := List.mem_map.mp hd1
  obtain ⟨c', hc', hv⟩ := lazyMapList_roots _ _ _ _ d2 hd2
  rw [value_map, value_andThen, leaf, value_node, hv]
  exact hp c' hc' _

/-- the pair (1, 3) of a property failing exactly when the first component is 1 -/
example : ∃ t s1 u s2, interval script u8 0 1 [1, 3] = .ok (t, s1) ∧ interval script u8 0 3 s1 = .ok (u, s2) ∧
    t.value = 1 ∧ u.value = 3 ∧ t.shrinks.map Shr.value = [0] ∧ u.shrinks ≠ [] :=
  ⟨_, _, _, _, rfl, rfl, rfl, rfl, rfl, by simp [leaf]⟩

/-- The first shrink of a dependent pair is computed with the state of the engine at the time. -/
private theorem dependency_first (gen1 : Gen σ α) (gen2gen : α → Gen σ β) (o : List Nat → σ) (s s1 s2 s3 sa : σ)
    (t : Shr α) (u up ua : Shr β) (c : Shr α) (cs : List (Shr α)) (h1 : gen1 s = .ok (t, s1))
    (h2 : gen2gen t.value s1 = .ok (u, s2)) (ht : t.shrinks = c :: cs) (hp : gen2gen c.value s2 = .ok (up, s3))
    (ha : gen2gen c.value (o [0]) = .ok (ua, sa)) :
    ∃ r, dependency gen1 gen2gen o s = .ok (r, s3) ∧ r.value = (t.value, u.value) ∧
      r.shrinks.head?.map Shr.value = some (c.value, ua.value) := by
  have hi : inter gen2gen c.value (o [0]) = .ok (c.value, ua) := by unfold inter; rw [ha]; rfl
  refine ⟨_, by
    unfold dependency dependent; rw [h1]; simp only [Outcome.ok_bind]; rw [h2]; simp only [Outcome.ok_bind]
    rw [ht, peek, hp]; rfl, ?_⟩
  rw [lazyMapList]
  rw [← eta c, lazyMap, hi]
  simp only [andThen, List.isEmpty_cons, flatMap_eq_map, map_node]
  simp [andThenList_eq, leaf]

/-- C86 is violated by every second generator that yields different values from different states: the first shrink offered
for a dependent pair has the second component that the generator yields from the state the engine is in when the shrinks
are looked at. -/
theorem C86_every_time_violated (gen1 : Gen σ α) (gen2gen : α → Gen σ β) (o o' : List Nat → σ) (s s1 s2 s3 sa sb : σ)
    (t : Shr α) (u up ua ub : Shr β) (c : Shr α) (cs : List (Shr α)) (h1 : gen1 s = .ok (t, s1))
    (h2 : gen2gen t.value s1 = .ok (u, s2)) (ht : t.shrinks = c :: cs) (hp : gen2gen c.value s2 = .ok (up, s3)) (ha : gen2gen c.value (o [0]) = .ok (ua, sa))
    (hb : gen2gen c.value (o' [0]) = .ok (ub, sb)) (hne : ua.value ≠ ub.value) :
    ∃ r r', dependency gen1 gen2gen o s = .ok (r, s3) ∧ dependency gen1 gen2gen o' s = .ok (r', s3) ∧
      r.value = r'.value ∧ r.shrinks.map Shr.value ≠ r'.shrinks.map Shr.value := by
  obtain ⟨r, e1, e2, e3⟩ := dependency_first gen1 gen2gen o s s1 s2 s3 sa t u up ua c cs h1 h2 ht hp ha
  obtain ⟨r', f1, f2, f3⟩ := dependency_first gen1 gen2gen o' s s1 s2 s3 sb t u up ub c cs h1 h2 ht hp hb
  refine ⟨r, r', e1, f1, by rw [e2, f2], fun h => hne ?_⟩
  have := congrArg List.head? h
  rw [List.head?_map, List.head?_map, e3, f3] at this
  exact congrArg Prod.snd (Option.some.inj this)

example : ∃ t s1 u s2 c cs up s3 ua sa ub sb, interval script u8 0 1 [1, 3, 2] = .ok (t, s1) ∧
    interval script u8 0 3 s1 = .ok (u, s2) ∧ t.shrinks = c :: cs ∧ interval script u8 0 3 s2 = .ok (up, s3) ∧ interval script u8 0 3 [2] = .ok (ua, sa) ∧
    interval script u8 0 3 [3] = .ok (ub, sb) ∧ ua.value ≠ ub.value :=
  ⟨_, _, _, _, _, _, _, _, _, _, _, _, rfl, rfl, rfl, rfl, rfl, rfl, by decide⟩

end

/-! ### C62 -/

section
open Unicode

/-- C62 is violated by all numbers that differ from a supplementary character by a multiple of 2^26: they are no Unicode
code points, but both encoders accept them and write the bytes of that character. -/
theorem C62_aliases_violated (c k : Nat) (hc : c.isValidChar) (h1 : 0x10000 ≤ c) (hk : 0 < k)
    (h2 : c + k * 2 ^ 26 < 2 ^ 32) :
    ¬ (c + k * 2 ^ 26).isValidChar ∧ encodeUTF16BE (c + k * 2 ^ 26) = encodeUTF16BE c ∧
    encodeUTF16LE (c + k * 2 ^ 26) = encodeUTF16LE c ∧ ∃ bs, encodeUTF16BE (c + k * 2 ^ 26) = .ok bs := by
  obtain ⟨bs, hbs, _⟩ := C62_be c hc
  unfold Nat.isValidChar at *
  have e : surrogates (c + k * 2 ^ 26) = surrogates c := by
    unfold surrogates
    have e1 : (0xD800 + (c + k * 2 ^ 26 + (2^32 - 0x10000)) % 2^32 / 2^10) % 2^16 =
        (0xD800 + (c + (2^32 - 0x10000)) % 2^32 / 2^10) % 2^16 := by omega
    have e2 : (c + k * 2 ^ 26 + (2^32 - 0x10000)) % 2^32 % 2^10 = (c + (2^32 - 0x10000)) % 2^32 % 2^10 := by omega
    simp only [e1, e2]
  have eb : encodeUTF16BE (c + k * 2 ^ 26) = encodeUTF16BE c := by
    unfold encodeUTF16BE
    rw [if_neg (by omega), if_neg (by omega), e]
  refine ⟨by omega, eb, ?_, bs, by rw [eb, hbs]⟩
  · unfold encodeUTF16LE
    rw [if_neg (by omega), if_neg (by omega), e]

example : (0x1F600 : Nat).isValidChar ∧ encodeUTF16BE (0x1F600 + 63 * 2 ^ 26) = .ok [0xD8, 0x3D, 0xDE, 0x00] := by
  decide

/-! ### C65 -/

private theorem Codec.print_then {F : List Nat → Nat → Prop} {enc : Nat → Outcome (List Nat)}
    {dec : List Nat → Outcome Nat} {step : List Nat → Outcome (Option Nat)} (H : Codec F enc dec step)
    {pstep : List Nat → Outcome (List Tok × Option Nat)}
    (hp : ∀ {bs c}, F bs c → ∀ rest, pstep (bs ++ rest) =
      .ok ([if c ≤ 0x7f then .wide c else .code c], some (bs.length - 1))) {codes cs tail : List Nat}
    (h : Enc F codes cs) (ht : ∀ fuel, tail.length ≤ fuel → printLoop16 pstep fuel tail = .ub) :
    ∀ fuel, (cs ++ tail).length ≤ fuel → printLoop16 pstep fuel (cs ++ tail) = .ub := by
  induction h with
  | nil => intro fuel hl; exact ht fuel hl
  | @cons c bs codes cs hf _ ih =>
    intro fuel hl
    have h1 := List.length_pos_of_ne_nil (H.bytes hf).1
    rw [List.append_assoc, List.length_append] at hl
    rw [List.append_assoc]
    rcases fuel with _ | fuel
    · omega
    have e := hp hf (cs ++ tail)
    have hd := fun a l (he : a :: l = bs ++ (cs ++ tail)) => H.drop hf he
    generalize hcs : bs ++ (cs ++ tail) = l at *
    rcases l with _ | ⟨a, l⟩
    · rw [List.append_eq_nil_iff] at hcs
      exact absurd hcs.1 (H.bytes hf).1
    · have := ih fuel (by omega)
      simp only [printLoop16, e, Outcome.ok_bind, hd a l rfl, this]
      rfl

/-- C65 is violated by every string that ends in half of a surrogate pair after any valid text: its display reads past
the end of the string, in both byte orders. -/
theorem C65_lone_surrogate_violated (codes cs : List Nat) (hv : ∀ c ∈ codes, c.isValidChar) (a b : Nat)
    (ha : 0xD8 ≤ a) (ha' : a ≤ 0xDF) :
    (encodeAll encodeUTF16BE codes = .ok cs → printUTF16BE (cs ++ [a, b]) = .ub) ∧
    (encodeAll encodeUTF16LE codes = .ok cs → printUTF16LE (cs ++ [b, a]) = .ub) := by
  refine ⟨fun h => Codec.print_then codecBE FormBE.print ((codecBE.enc_iff hv).2 h) ?_ _ (Nat.le_refl _),
    fun h => Codec.print_then codecLE FormLE.print ((codecLE.enc_iff hv).2 h) ?_ _ (Nat.le_refl _)⟩
  · intro fuel hl
    rcases fuel with _ | fuel
    · simp at hl
    · have h1 : ¬ (a ≤ 0xD7 ∨ 0xE0 ≤ a) := by omega
      have h0 : a ≠ 0 := by omega
      simp only [printLoop16, printUTF16BEStep]
      simp [h0, h1]
      simp [rd]
  · intro fuel hl
    rcases fuel with _ | fuel
    · simp at hl
    · have h1 : ¬ (a ≤ 0xD7 ∨ 0xE0 ≤ a) := by omega
      have h0 : a ≠ 0 := by omega
      simp only [printLoop16, printUTF16LEStep]
      simp [h0, h1]
      simp [rd]

example : encodeAll encodeUTF16BE [0x41, 0x1F600] = .ok [0, 0x41, 0xD8, 0x3D, 0xDE, 0] ∧
    printUTF16BE ([0, 0x41, 0xD8, 0x3D, 0xDE, 0] ++ [0xDC, 7]) = .ub := by decide

end

/-! ### C91, C92 -/

section
open Context

/-- C91 is violated by every pair of a string and a longer one that begins with it: they are different, but count as
equal. -/
theorem C91_every_prefix_violated (a b : List Nat) (hb : b ≠ []) :
    a ≠ a ++ b ∧ streq2 a (a ++ b) a.length (a ++ b).length = .ok true ∧
    streq2 (a ++ b) a (a ++ b).length a.length = .ok true := by
  refine ⟨fun h => hb (by simpa using h), ?_, ?_⟩
  · obtain ⟨r, h1, _, h2, _⟩ := C91_streq2_partial a (a ++ b)
    rw [h1, h2.mpr (Or.inl (List.prefix_append a b))]
  · obtain ⟨r, h1, _, h2, _⟩ := C91_streq2_partial (a ++ b) a
    rw [h1, h2.mpr (Or.inr (List.prefix_append a b))]

example : ([120] : List Nat) ≠ [] := by decide

/-- C92, what is shown exactly: the streamed text, followed by what it leaves of the comparison text. So C92 is violated by
every failing expectation with a streamed text: neither the comparison text followed by the streamed text is shown, nor
the other way round. -/
theorem C92_always_overwrites_violated (name detail msg : Txt) (w : World) (a : Nat) (c : Ctx) (h : Live w a c)
    (hd : detail ≠ []) (hm : msg ≠ []) :
    ∃ w' c' f, expectStream false name detail msg w = .ok w' ∧ Live w' a c' ∧ c'.failures = c.failures ++ [f] ∧
      f.str.buf = msg ++ detail.drop msg.length ∧ f.str.buf ≠ detail ++ msg ∧ f.str.buf ≠ msg ++ detail := by
  obtain ⟨w', c', h1, h2, _, _, _, _, h7⟩ := expectStream_live h false name detail msg
  have l1 := List.length_pos_of_ne_nil hd
  have l2 := List.length_pos_of_ne_nil hm
  refine ⟨w', c', _, h1, h2, h7, rfl, ?_, ?_⟩
  · intro e
    have := congrArg List.length e
    simp only [List.length_append, List.length_drop] at this
    omega
  · intro e
    have := congrArg List.length e
    simp only [List.length_append, List.length_drop] at this
    omega

example : ∃ c, Live (ctor start).2 0 c := ⟨_, rfl, rfl, fun b hb => by
  have : b ≠ 0 := by intro h; subst h; simp [ctor, start] at hb
  simp [ctor, start, World.set, this]⟩

end

/-! ### C93, C94 -/

namespace Stateful
open Engine PairTuple
variable {O M : Type}

/-- C93 is violated by every stateful property in the function style: called a second time, `go` always throws
`bad_function_call`, provided it makes a run at all (and the hooks return, no time limit is set, and the action
generator draws a list). -/
theorem C93_every_second_go_violated (p : Prop' σ O M) (env : Env σ O (List (Act O M))) (fuel1 fuel : Nat)
    (tr1 : Trace (Two O (List (Act O M)))) (hq : (p.config env).Quiet)
    (ho : env.orderRun = [0, 1] ∨ env.orderRun = [1, 0]) (hs : env.orderShrink = env.orderRun)
    (he : env.orderEach.Nodup) (hr : 0 < (p.config env).numRuns) (ht : (p.config env).maxDurationMs = 0)
    (ha : ∀ s, ∃ r, ListLike.arbiVector env.R p.actionGen 0 200 s = .ok r) :
    ((p.go env fuel1 tr1).2.go env (fuel + 1) []).1.1 = .throws .stdOther := by
  set p2 := (p.go env fuel1 tr1).2 with hp2
  have hg : ∀ s, Gen.drawTuple (p2.config env).gens (p2.config env).orderRun s = .throws .stdOther := by
    intro s
    unfold Gen.drawTuple
    rcases ho with ho | ho
    · rw [show (p2.config env).orderRun = [0, 1] from ho]
      rfl
    · rw [show (p2.config env).orderRun = [1, 0] from ho]
      obtain ⟨⟨t, s'⟩, hr⟩ := ha s
      have : (p2.config env).gens 1 s = .ok (t, s') := hr
      simp only [Gen.drawInto, this, Outcome.ok_bind]
      rfl
  have hc : Setting (p2.config env) := ⟨hq, hs, he, fun s => by rw [hg]; simp⟩
  exact C54_generator_exception_escapes_violated hc fuel _ .stdOther rfl (by decide) (by decide) hr ht (hg _)

/-- C94 is violated for `setNumRuns(UINT32_MAX)` and `setMaxDurationMs(UINT32_MAX)` whatever the property and the values
set before: the default applies. -/
theorem C94_largest_values_default_violated (p : Prop' σ O M) (env : Env σ O (List (Act O M))) (n : Nat) :
    ((p.setNumRuns n).setNumRuns (2^32 - 1)).config env =
      { p.config env with numRuns := env.defaultNumRuns } ∧
    ((p.setMaxDurationMs n).setMaxDurationMs (2^32 - 1)).config env =
      { p.config env with maxDurationMs := env.defaultMaxDurationMs } := by
  have h : ∀ d : Nat, (if (2^32 - 1 : Nat) ≠ uint32Max then 2^32 - 1 else d) = d := fun d => if_neg (fun h => h rfl)
  constructor
  · unfold Prop'.config Prop'.setNumRuns; simp only [h]
  · unfold Prop'.config Prop'.setMaxDurationMs; simp only [h]

example : (sample.setNumRuns 7).numRuns = 7 ∧ (sampleEnv 1).orderRun = [0, 1] ∧
    0 < (sample.config (sampleEnv 1)).numRuns ∧ (sample.config (sampleEnv 1)).maxDurationMs = 0 := by decide

end Stateful
/-! ### C74 -/

section
open Comb

/-- The sizes of intervals. -/
def sizes (is : List (Int × Int)) : List Int := is.map fun i => i.2 - i.1 + 1

/-- The weights of intervals. -/
private def weightsOf (is : List (Int × Int)) : List Dbl :=
  (sizes is).map fun n : ℤ => .fin (rne ((n : ℚ) / ((sizes is).sum : ℤ)))

/-- How `intervals` ends, by the weights. -/
private theorem intervals_by (R : Rng σ) (is : List (Int × Int)) (hi : ∀ i ∈ is, i.1 ≤ i.2)
    (hb : (sizes is).sum ≤ 2 ^ 53) :
    (intervals R is = .throws .runtimeError ↔ assignWeights (weightsOf is) = .throws .runtimeError) ∧
    ((∃ ws, intervals R is = .ok ws) ↔ ∃ ws, assignWeights (weightsOf is) = .ok ws) := by
  have hpos : ∀ x ∈ sizes is, 0 ≤ x := by
    intro x hx
    obtain ⟨j, hj, rfl⟩ := List.mem_map.mp hx
    have := hi j hj
    omega
  have hle : ∀ i ∈ is, i.2 - i.1 + 1 ≤ (sizes is).sum := fun i h =>
    List.single_le_sum hpos (i.2 - i.1 + 1) (List.mem_map_of_mem (f := fun i : Int × Int => i.2 - i.1 + 1) h)
  have hall : ∀ i ∈ is, i.1 ≤ i.2 ∧ i.2 - i.1 < 2 ^ 63 - 1 := by
    intro i h
    have := hle i h
    have := hi i h
    omega
  have h0 : 0 ≤ (sizes is).sum := List.sum_nonneg hpos
  have hsz : sumSizes intervalSize is 0 = .ok (sizes is).sum := by
    have := sumSizes_eq hall 0 (le_refl _) (by change 0 + (sizes is).sum < _; omega)
    rwa [zero_add] at this
  rw [intervals, hsz, Outcome.ok_bind]
  obtain ⟨gs, e, hg⟩ := weightSizes_eq R hall ((sizes is).sum).toNat
  rw [e, Outcome.ok_bind, oneOf, hg]
  have hw : (is.map fun i => (Dbl.ofInt (i.2 - i.1 + 1)).divNat ((sizes is).sum).toNat) = weightsOf is := by
    unfold weightsOf
    rw [show sizes is = is.map fun i => i.2 - i.1 + 1 from rfl, List.map_map,
      ← show sizes is = is.map fun i => i.2 - i.1 + 1 from rfl]
    refine List.map_congr_left fun i h => ?_
    have g1 := hle i h
    have g2 := hi i h
    obtain ⟨n, hn⟩ : ∃ n : ℕ, i.2 - i.1 + 1 = n := ⟨(i.2 - i.1 + 1).toNat, by omega⟩
    obtain ⟨m, hm⟩ : ∃ m : ℕ, (sizes is).sum = m := ⟨_, (Int.toNat_of_nonneg h0).symm⟩
    rw [hm] at g1 hb
    simp only [Function.comp, hn, hm, Int.toNat_natCast, Dbl.ofInt, Dbl.divNat, Int.cast_natCast]
    rw [if_neg (by omega), rne_nat (n := n) (by omega), rne_nat (n := m) (by omega)]
  rw [hw]
  generalize assignWeights _ = o
  cases o <;> simp

/-- Whether `intervals` accepts a list depends only on the ratios of the sizes: when all sizes are multiplied by `k`, and
their sum stays at most 2^53, the outcome is the same. -/
theorem C74_ratio_partial (R : Rng σ) (is js : List (Int × Int)) (k : Nat) (hk : 0 < k) (hi : ∀ i ∈ is, i.1 ≤ i.2)
    (hj : ∀ j ∈ js, j.1 ≤ j.2)
    (hs : sizes js = (sizes is).map fun n => (k : Int) * n)
    (hb : (sizes js).sum ≤ 2 ^ 53) :
    (intervals R js = .throws .runtimeError ↔ intervals R is = .throws .runtimeError) ∧
    ((∃ ws, intervals R js = .ok ws) ↔ ∃ ws, intervals R is = .ok ws) := by
  have hsum : (sizes js).sum = k * (sizes is).sum := by
    rw [hs]
    generalize sizes is = ns
    induction ns with
    | nil => simp
    | cons n ns ih => simp only [List.map_cons, List.sum_cons, ih]; ring
  have h0 : 0 ≤ (sizes is).sum := List.sum_nonneg fun x hx => by
    obtain ⟨j, hj, rfl⟩ := List.mem_map.mp hx
    have := hi j hj
    omega
  have hle : (sizes is).sum ≤ 2 ^ 53 := by
    refine le_trans ?_ hb
    rw [hsum]
    nlinarith
  have e1 := intervals_by R is hi hle
  have e2 := intervals_by R js hj hb
  have hw : weightsOf js =
      weightsOf is := by
    unfold weightsOf
    rw [hsum, hs, List.map_map]
    refine List.map_congr_left fun n _ => ?_
    have hk' : (k : ℚ) ≠ 0 := by exact_mod_cast hk.ne'
    simp only [Function.comp]
    push_cast
    rw [mul_div_mul_left _ _ hk']
  rw [hw] at e2
  exact ⟨e2.1.trans e1.1.symm, e2.2.trans e1.2.symm⟩

/-- C74 is violated for non-empty intervals of sizes k, 6k, 3k, 3k, wherever they are and for every k (with at most 2^53
elements). -/
theorem C74_multiples_violated (R : Rng σ) (k : Nat) (hk : 0 < k) (hb : 13 * k ≤ 2 ^ 53) (a b c d : Int) :
    intervals R [(a, a + k - 1), (b, b + 6 * k - 1), (c, c + 3 * k - 1), (d, d + 3 * k - 1)] = .throws .runtimeError := by
  refine (C74_ratio_partial R [(0, 0), (10, 15), (20, 22), (30, 32)] _ k hk ?_ ?_ ?_ ?_).1.2 (C74_violated R)
  · decide
  · simp only [List.mem_cons, List.not_mem_nil, or_false, forall_eq_or_imp, forall_eq]
    omega
  · simp only [sizes, List.map_cons, List.map_nil, List.cons.injEq, and_true]
    omega
  · simp only [sizes, List.map_cons, List.map_nil, List.sum_cons, List.sum_nil]
    omega

-- sizes 7, 42, 21, 21
example : sizes [(0, 6), (-50, -9), (100, 120), (200, 220)] = (sizes [(0, 0), (10, 15), (20, 22), (30, 32)]).map (7 * ·) := by
  decide

end

/-! ### C75, C76 -/

section
open IntType Integral Random

/-- C75 is violated for every type but `int32_t` and `int64_t`, whatever the start: `inRange(from, min)` with the minimum of
the type as the excluded end always yields a value, and can yield every value from `from` on. -/
theorem C75_inRange_always_violated (T : IntType) (hT : T ∈ all) (hw : T ≠ i32 ∧ T ≠ i64) (frm : Int) (h1 : T.lo ≤ frm)
    (h2 : frm ≤ T.hi) :
    (∀ (R : Rng σ) s, ∃ t s', inRange R T frm T.lo s = .ok (t, s') ∧ frm ≤ t.value ∧ t.value ≤ T.hi) ∧
    ∀ v, frm ≤ v → v ≤ T.hi → ∃ s t s', inRange script T frm T.lo s = .ok (t, s') ∧ t.value = v := by
  have key : ∀ (τ : Type) (R : Rng τ) s, inRange R T frm T.lo s = generateInteger R T frm T.hi s := by
    intro τ R s
    have : ∃ e, T.arith (T.lo - 1) = .ok e ∧ T.wrap e = T.hi := by
      obtain ⟨hw1, hw2⟩ := hw
      rcases cases8 hT with rfl | rfl | rfl | rfl | rfl | rfl | rfl | rfl
      all_goals first | exact absurd rfl hw1 | exact absurd rfl hw2 | exact ⟨_, rfl, by decide⟩
    obtain ⟨e, he, hx⟩ := this
    unfold inRange
    rw [he, Outcome.ok_bind, hx]
  refine ⟨fun R s => ?_, fun v hv1 hv2 => ?_⟩
  · obtain ⟨t, s', ht, hg⟩ := generateInteger_good R hT s h1 h2 (le_refl _)
    exact ⟨t, s', by rw [key, ht], hg.1 _ ⟨_, .refl _, rfl⟩⟩
  · obtain ⟨s, t, s', h⟩ := C17_every_value_possible T hT frm T.hi v h1 hv1 hv2 (le_refl _)
    exact ⟨s, t, s', by rw [key]; exact h⟩

/-- C75 is violated for every type but `int32_t` and `int64_t`, whenever the inclusive end lies below the minimum of the
type: `integers(start, count)` yields a value although `count` is not positive. -/
theorem C75_integers_always_violated (R : Rng σ) (T : IntType) (hT : T ∈ all) (hw : T ≠ i32 ∧ T ≠ i64) (start count : Int)
    (s : σ) (h1 : T.lo ≤ start) (h2 : start ≤ T.hi) (h3 : T.lo ≤ count) (h4 : count ≤ 0) (h5 : start + count ≤ T.lo) :
    ∃ t s', integers R T start count s = .ok (t, s') ∧ start ≤ t.value := by
  have key : ∃ e, (T.arith (start + count) >>= fun a => T.arith (a - 1)) = .ok e ∧ start ≤ T.wrap e ∧ T.wrap e ≤ T.hi := by
    obtain ⟨hw1, hw2⟩ := hw
    rcases cases8 hT with rfl | rfl | rfl | rfl | rfl | rfl | rfl | rfl
    · refine ⟨start + count - 1, rfl, ?_⟩
      simp only [i8_wrap, i8_lo, i8_hi] at *; omega
    · refine ⟨start + count - 1, rfl, ?_⟩
      simp only [i16_wrap, i16_lo, i16_hi] at *; omega
    · exact absurd rfl hw1
    · exact absurd rfl hw2
    · refine ⟨start + count - 1, rfl, ?_⟩
      simp only [u8_wrap, u8_lo, u8_hi] at *; omega
    · refine ⟨start + count - 1, rfl, ?_⟩
      simp only [u16_wrap, u16_lo, u16_hi] at *; omega
    · refine ⟨u32.wrap (u32.wrap (start + count) - 1), rfl, ?_⟩
      simp only [u32_wrap, u32_lo, u32_hi] at *; omega
    · refine ⟨u64.wrap (u64.wrap (start + count) - 1), rfl, ?_⟩
      simp only [u64_wrap, u64_lo, u64_hi] at *; omega
  obtain ⟨e, he, hx, hy⟩ := key
  unfold integers
  rw [Outcome.bind_eq_ok] at he
  obtain ⟨a, ha, he⟩ := he
  rw [ha, Outcome.ok_bind, he, Outcome.ok_bind]
  obtain ⟨t, s', ht, hg⟩ := generateInteger_good R hT s h1 hx hy
  exact ⟨t, s', ht, (hg.1 _ ⟨_, .refl _, rfl⟩).1⟩

/-- C76 is violated for `int32_t` and `int64_t` by every range that ends at the maximum of the type: `integers` is
undefined. -/
theorem C76_up_to_max_violated (R : Rng σ) (T : IntType) (hw : T = i32 ∨ T = i64) (start count : Int) (s : σ)
    (h3 : start + count - 1 = T.hi) : integers R T start count s = .ub := by
  obtain h : start + count = T.hi + 1 := by omega
  unfold integers
  rw [h]
  rcases hw with rfl | rfl <;> rfl

-- inRange<int8_t>(5, -128) can yield 9
example : ∃ t s', inRange script i8 5 (-128) [9] = .ok (t, s') ∧ t.value = 9 := ⟨_, _, rfl, by decide⟩
example : i16.lo ≤ -32767 ∧ (-32767 : Int) ≤ i16.hi ∧ i16.lo ≤ -5 ∧ (-32767 : Int) + -5 ≤ i16.lo := by decide
example : (-7 : Int) + 9223372036854775815 - 1 = i64.hi := by decide

end

end Verif
