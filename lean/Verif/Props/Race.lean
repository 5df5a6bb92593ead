import Verif.Lemmas.Race
/-!
C125: rear actions of a concurrent test may use the expectation and tag macros.

Full statement: in no execution of a concurrent test do two rear actions race for the data of the property context,
whatever macros they use. This is violated in both styles, already by expectations that hold. What does hold is proved in
the `_partial` theorems.
-/
namespace Verif
namespace Concurrency
open Engine Stateful Race
variable {N : Nat} {O M : Type}

/-- For the examples: adds `n` to the object. -/
private def adds (n : Nat) : Act Nat Unit := fun o m => ⟨[], .ok (o + n, m)⟩

/-- For the examples: every action uses one expectation, which holds. -/
private def expects {N : Nat} {O M : Type} : Fin N → Nat → O → M → List Macro := fun _ _ _ _ => [.expectHolds]

/-- Two macros that write the same part of the context race when two threads are in their actions at the same time and the
scheduler lets one run after the other. -/
theorem overlap_race (uses : Fin N → Nat → O → M → List Macro) (init : Sys N O M)
    (sched : List (Fin N)) (s : Sys N O M) (hs : run sched init = .running s) (t u : Fin N) (hne : t ≠ u)
    (a b : Act O M) (as bs : List (Act O M)) (m m' : M) (ht : s.thr t = ⟨a :: as, .act, m⟩)
    (hu : s.thr u = ⟨b :: bs, .act, m'⟩) (o : O) (m1 : M) (ha : (a s.obj m).out = .ok (o, m1))
    (x y : Macro) (hx : x ∈ uses t as.length s.obj m) (hy : y ∈ uses u bs.length o m') (p : Part)
    (hxp : p ∈ x.writes) (hyp : p ∈ y.writes) :
    DataRace (runTrace uses (sched ++ [t, u]) init) p := by
  have hx' : p ∈ (uses t as.length s.obj m).flatMap Macro.writes := List.mem_flatMap.2 ⟨x, hx, hxp⟩
  have hy' : p ∈ (uses u bs.length o m').flatMap Macro.writes := List.mem_flatMap.2 ⟨y, hy, hyp⟩
  rw [runTrace_append _ _ _ _ _ hs]
  have e1 : step s t = .running { s.setThr t ⟨a :: as, .stop, m1⟩ with obj := o } := by
    simp only [step, ht, ha]
  have e2 : runTrace uses [t, u] s =
      ((uses t as.length s.obj m).flatMap Macro.writes).map (fun p => (t, .write p)) ++
        ((uses u bs.length o m').flatMap Macro.writes).map (fun p => (u, .write p)) := by
    simp only [runTrace, e1]
    have h1 : stepTrace uses s t = ((uses t as.length s.obj m).flatMap Macro.writes).map (fun p => (t, .write p)) := by
      simp [stepTrace, ht]
    have h2 : stepTrace uses { s.setThr t ⟨a :: as, .stop, m1⟩ with obj := o } u =
        ((uses u bs.length o m').flatMap Macro.writes).map (fun p => (u, .write p)) := by
      simp [stepTrace, Sys.setThr, Ne.symm hne, hu]
    rw [h1, h2]
    congr 1
    split <;> simp
  rw [e2]
  obtain ⟨i, hi⟩ := List.getElem?_of_mem hx'
  obtain ⟨j, hj⟩ := List.getElem?_of_mem hy'
  generalize hX : (uses t as.length s.obj m).flatMap Macro.writes = X at hi ⊢
  generalize hY : (uses u bs.length o m').flatMap Macro.writes = Y at hj ⊢
  generalize runTrace uses sched init = tr
  have hiX : i < X.length := by rw [List.getElem?_eq_some_iff] at hi; exact hi.1
  have hjY : j < Y.length := by rw [List.getElem?_eq_some_iff] at hj; exact hj.1
  have g1 : (tr ++ (X.map (fun p => (t, Kind.write p)) ++ Y.map (fun p => (u, Kind.write p))))[tr.length + i]? =
      some (t, .write p) := by
    rw [List.getElem?_append_right (by omega), Nat.add_sub_cancel_left, List.getElem?_append_left (by simpa using hiX),
      List.getElem?_map, hi]
    rfl
  have g2 : (tr ++ (X.map (fun p => (t, Kind.write p)) ++ Y.map (fun p => (u, Kind.write p))))[tr.length + X.length + j]? =
      some (u, .write p) := by
    rw [List.getElem?_append_right (by omega), List.getElem?_append_right (by simp; omega), List.getElem?_map]
    rw [show tr.length + X.length + j - tr.length - (X.map fun p => (t, Kind.write p)).length = j by simp; omega, hj]
    rfl
  refine ⟨_, _, t, u, hne, g1, g2, fun h => ?_, fun h => ?_⟩
  · obtain ⟨c, d, k1, k2, k3, k4, k5⟩ := (write_before_iff hne g1 g2).1 h
    rw [List.getElem?_append_right (show tr.length ≤ c by omega)] at k4
    have hmem := List.mem_of_getElem? k4
    simp at hmem
  · have := h.lt; omega

/-- C125: when two threads are in their actions at the same time and the scheduler lets one run after the other, then two
expectations, whether they hold or fail, race for the flag of the last stream; two expectations that fail race for the
list of failures too; and two `PROP_TAG`s race for the tags. -/
theorem C125_overlapping_expectations_race_violated (uses : Fin N → Nat → O → M → List Macro) (init : Sys N O M)
    (sched : List (Fin N)) (s : Sys N O M) (hs : run sched init = .running s) (t u : Fin N) (hne : t ≠ u)
    (a b : Act O M) (as bs : List (Act O M)) (m m' : M) (ht : s.thr t = ⟨a :: as, .act, m⟩)
    (hu : s.thr u = ⟨b :: bs, .act, m'⟩) (o : O) (m1 : M) (ha : (a s.obj m).out = .ok (o, m1))
    (x y : Macro) (hx : x ∈ uses t as.length s.obj m) (hy : y ∈ uses u bs.length o m') :
    ((x = .expectHolds ∨ x = .expectFails) → (y = .expectHolds ∨ y = .expectFails) →
      DataRace (runTrace uses (sched ++ [t, u]) init) .lastStream) ∧
    (x = .expectFails → y = .expectFails → DataRace (runTrace uses (sched ++ [t, u]) init) .failures) ∧
    (x = .tag → y = .tag → DataRace (runTrace uses (sched ++ [t, u]) init) .tags) := by
  have hp : ∀ z : Macro, z = .expectHolds ∨ z = .expectFails → Part.lastStream ∈ z.writes := by
    rintro z (rfl | rfl) <;> simp [Macro.writes]
  have key := fun p => overlap_race uses init sched s hs t u hne a b as bs m m' ht hu o m1 ha x y hx hy p
  refine ⟨fun h1 h2 => key _ (hp _ h1) (hp _ h2), ?_, ?_⟩
  · rintro rfl rfl; exact key _ (by simp [Macro.writes]) (by simp [Macro.writes])
  · rintro rfl rfl; exact key _ (by simp [Macro.writes]) (by simp [Macro.writes])

example : ∃ sched s, run sched (rearInit 0 (fun _ : Fin 2 => [adds 3]) 1 ()) = .running s ∧
    s.thr 0 = ⟨[adds 3], .act, ()⟩ ∧ s.thr 1 = ⟨[adds 3], .act, ()⟩ :=
  ⟨[0, 1, 0, 1], _, rfl, rfl, rfl⟩

/-- C125: so whenever the first actions of two threads use expectations (that hold or fail), there is an execution with a
data race, whatever else there is in the test. -/
theorem C125_expectations_race_violated (uses : Fin N → Nat → O → M → List Macro) (F : Nat)
    (rears : Fin N → List (Act O M)) (obj : O) (model : M) (t u : Fin N) (hne : t ≠ u) (a b : Act O M)
    (as bs : List (Act O M)) (ht : rears t = a :: as) (hu : rears u = b :: bs) (r : O × M)
    (ha : (a obj model).out = .ok r)
    (hx : ∀ o m, ∃ x ∈ uses t as.length o m, x = .expectHolds ∨ x = .expectFails)
    (hy : ∀ o m, ∃ x ∈ uses u bs.length o m, x = .expectHolds ∨ x = .expectFails) :
    ∃ sched, DataRace (runTrace uses sched (rearInit F rears obj model)) .lastStream := by
  have hlen : F + 1 < (rearInit F rears obj model).log.length := by
    have hmem : t ∈ List.finRange N := List.mem_finRange t
    have hle : (rears t).length * 2 ≤ ((List.finRange N).map fun t => (rears t).length * 2).sum :=
      List.single_le_sum (fun _ _ => Nat.zero_le _) _ (List.mem_map.2 ⟨t, hmem, rfl⟩)
    have h2 : (rearInit F rears obj model).log.length =
        F + ((List.finRange N).map fun t => (rears t).length * 2).sum := by
      simp [rearInit, List.length_flatten, List.map_map, Function.comp_def]
    rw [h2]
    rw [ht] at hle
    simp only [List.length_cons] at hle
    omega
  generalize hinit : rearInit F rears obj model = init at hlen ⊢
  have i1 : init.thr t = ⟨a :: as, .start, model⟩ := by rw [← hinit]; simp [rearInit, ht]
  have i2 : init.thr u = ⟨b :: bs, .start, model⟩ := by rw [← hinit]; simp [rearInit, hu]
  have i3 : init.counter = F := by rw [← hinit]; rfl
  have i4 : init.obj = obj := by rw [← hinit]; rfl
  have hrun : ∃ s, run [t, u, t, u] init = .running s ∧ s.thr t = ⟨a :: as, .act, model⟩ ∧
      s.thr u = ⟨b :: bs, .act, model⟩ ∧ s.obj = obj := by
    have hut := Ne.symm hne
    simp [run, step, i1, i2, i3, Sys.setThr, hne, hut, hlen, show F < init.log.length by omega, i4]
  obtain ⟨s, h1, h2, h3, h4⟩ := hrun
  obtain ⟨x, hx1, hx2⟩ := hx s.obj model
  obtain ⟨y, hy1, hy2⟩ := hy r.1 model
  exact ⟨_, (C125_overlapping_expectations_race_violated uses init _ s h1 t u hne a b as bs model model h2 h3 r.1 r.2
    (by rw [h4]; exact ha) x y hx1 hy1).1 hx2 hy2⟩

example : ∃ sched, DataRace (runTrace expects sched (rearInit 0 (fun _ : Fin 2 => [adds 3, adds 4]) 1 ())) .lastStream :=
  C125_expectations_race_violated expects 0 _ 1 () 0 1 (by decide) (adds 3) (adds 3) [adds 4] [adds 4] rfl rfl (4, ()) rfl
    (fun _ _ => ⟨.expectHolds, by simp [expects], .inl rfl⟩) (fun _ _ => ⟨.expectHolds, by simp [expects], .inl rfl⟩)

/-- C125, class style: if the first actions of both threads use expectations and can be executed, then there is a data race
in every execution that comes to its end (and in every one in which both have been executed). -/
theorem C125_class_always_races_violated (uses : Fin 2 → Nat → O → M → List Macro) (rears : Fin 2 → List (ClassAct O M))
    (obj : O) (model : M) (hr : ∀ t, rears t ≠ [])
    (hpre : ∀ t, ∀ a ∈ (rears t).head?, ∀ o m, (a.precondition o m).out = .ok true)
    (huse : ∀ t o m, ∃ x ∈ uses t ((rears t).length - 1) o m, x = .expectHolds ∨ x = .expectFails)
    (sched : List (Fin 2)) (s : ClassSys O M) (hs : classRun sched (classInit rears obj model) = .running s)
    (hj : s.Joined) : DataRace (classRunTrace uses sched (classInit rears obj model)) .lastStream := by
  have hf : ∀ u, First rears .lastStream ([] ++ classRunTrace uses sched (classInit rears obj model)) s u := by
    intro u
    refine first_run (fun a ha o m => by rw [hpre u a ha]; simp) (fun o m => ?_) sched [] _ s ?_ hs
    · obtain ⟨x, hx, hxe⟩ := huse u o m
      refine List.mem_flatMap.2 ⟨x, hx, ?_⟩
      rcases hxe with rfl | rfl <;> simp [Macro.writes]
    · exact .inl ⟨rfl, .inl rfl, by simp⟩
  have hd : ∀ u : Fin 2, ∃ j : Nat, (classRunTrace uses sched (classInit rears obj model))[j]? =
      some (u, .write .lastStream) ∧ ∀ b : Nat, b < j →
        (classRunTrace uses sched (classInit rears obj model))[b]? ≠ some (u, .sync) := by
    intro u
    rcases hf u with ⟨h1, -, -⟩ | h
    · exact absurd (h1.symm.trans (hj u)) (hr u)
    · simpa using h
  obtain ⟨i, h1, h2⟩ := hd 0
  obtain ⟨j, h3, h4⟩ := hd 1
  exact race_of_no_sync (by decide) h1 h3 h2 h4

/-- For the examples: adds `n` to the object. -/
private def classAdds (n : Nat) : ClassAct Nat Nat := ⟨fun _ _ => ⟨[], .ok true⟩, fun o m => ⟨[], .ok (true, o + n, m)⟩⟩

example : ∃ sched s, classRun sched (classInit (fun _ => [classAdds 3]) 1 0) = .running s ∧ s.Joined := by
  refine ⟨[0, 0, 0, 0, 1, 1, 1, 1], ?_⟩
  generalize hr : classRun _ _ = r
  have h : (match classRun [0, 0, 0, 0, 1, 1, 1, 1] (classInit (fun _ => [classAdds 3]) 1 0) with
    | .running m => decide m.Joined
    | _ => false) = true := by decide +kernel
  rw [hr] at h
  cases r with
  | running s => exact ⟨s, rfl, by simpa using h⟩
  | _ => cases h

/-- C125, the part that holds: if only one thread's actions use macros that write a part of the context, there is no data
race for that part, in any execution. Missing: the macros in actions of more than one thread. -/
theorem C125_one_thread_partial (uses : Fin N → Nat → O → M → List Macro) (init : Sys N O M) (p : Part) (t : Fin N)
    (huse : ∀ u, u ≠ t → ∀ k, k < (init.thr u).rest.length → ∀ o m, ∀ x ∈ uses u k o m, p ∉ x.writes)
    (sched : List (Fin N)) : ¬ DataRace (runTrace uses sched init) p := by
  refine no_race_of_one t fun u hu => ?_
  obtain ⟨k, o, m, hk, hp⟩ := mem_runTrace hu
  by_contra hne
  obtain ⟨x, hx, hxp⟩ := List.mem_flatMap.1 hp
  exact huse u hne k hk o m x hx hxp

example : ∀ u : Fin 2, u ≠ 0 → ∀ k, k < ((rearInit 0 (fun _ : Fin 2 => [adds 3]) 1 ()).thr u).rest.length → ∀ o m,
    ∀ x ∈ (fun (t : Fin 2) (_ : Nat) (_ : Nat) (_ : Unit) => if t = 0 then [Macro.expectFails] else [Macro.tag]) u k o m,
      Part.lastStream ∉ x.writes := by
  intro u hu k _ o m x hx
  simp [hu] at hx
  subst hx
  simp [Macro.writes]

/-- C125, class style, the part that holds. -/
theorem C125_class_one_thread_partial (uses : Fin 2 → Nat → O → M → List Macro) (init : ClassSys O M) (p : Part) (t : Fin 2)
    (huse : ∀ u, u ≠ t → ∀ k, k < (init.thr u).rest.length → ∀ o m, ∀ x ∈ uses u k o m, p ∉ x.writes)
    (sched : List (Fin 2)) : ¬ DataRace (classRunTrace uses sched init) p := by
  refine no_race_of_one t fun u hu => ?_
  obtain ⟨k, o, m, hk, hp⟩ := mem_classRunTrace hu
  by_contra hne
  obtain ⟨x, hx, hxp⟩ := List.mem_flatMap.1 hp
  exact huse u hne k hk o m x hx hxp

example : ∀ u : Fin 2, u ≠ 1 → ∀ k, k < ((classInit (fun _ : Fin 2 => [classAdds 3]) 1 0).thr u).rest.length → ∀ o m,
    ∀ x ∈ (fun (t : Fin 2) (_ : Nat) (_ : Nat) (_ : Nat) => if t = 1 then [Macro.expectFails] else [Macro.tag]) u k o m,
      Part.lastStream ∉ x.writes := by
  intro u hu k _ o m x hx
  simp [hu] at hx
  subst hx
  simp [Macro.writes]

/-- C125, function style, the part that holds: there is no data race in an execution in which no two threads are between
the start and the end of an action at the same time: the counter orders the actions. Missing: actions that overlap, which
is what a concurrent test is for. -/
theorem C125_no_overlap_partial (uses : Fin N → Nat → O → M → List Macro) (F : Nat)
    (rears : Fin N → List (Act O M)) (obj : O) (model : M) (sched : List (Fin N)) (s : Sys N O M)
    (hs : run sched (rearInit F rears obj model) = .running s)
    (hseq : ∀ pre post, sched = pre ++ post → ∀ s, run pre (rearInit F rears obj model) = .running s →
      ∀ t u, (s.thr t).pc ≠ .start → (s.thr u).pc ≠ .start → t = u) (p : Part) :
    ¬ DataRace (runTrace uses sched (rearInit F rears obj model)) p := by
  have ord := ordered_run (uses := uses) (init := rearInit F rears obj model) (fun _ => rfl) sched hseq s hs
  rintro ⟨i, j, t, u, hne, h1, h2, n1, n2⟩
  rcases Nat.lt_trichotomy i j with h | h | h
  · obtain ⟨a, b, k1, k2, k3, k4, k5⟩ := ord.all i j t u p p hne h h1 h2
    exact n1 ((write_before_iff hne h1 h2).2 ⟨a, b, k1, k2, k3, k4, k5⟩)
  · subst h; rw [h1] at h2; cases h2; exact hne rfl
  · obtain ⟨a, b, k1, k2, k3, k4, k5⟩ := ord.all j i u t p p (Ne.symm hne) h h2 h1
    exact n2 ((write_before_iff (Ne.symm hne) h2 h1).2 ⟨a, b, k1, k2, k3, k4, k5⟩)

example : ∀ pre post, [0, 0, 0, 0, 0, 1, 1, 1] = pre ++ post →
    ∀ s, run pre (rearInit 0 (fun _ : Fin 2 => [adds 3]) 1 ()) = .running s →
      ∀ t u, (s.thr t).pc ≠ .start → (s.thr u).pc ≠ .start → t = u := by
  have H : ∀ n : Fin 9, ∀ t u : Fin 2,
      (match run ([0, 0, 0, 0, 0, 1, 1, 1].take n.val) (rearInit 0 (fun _ : Fin 2 => [adds 3]) 1 ()) with
      | .running s => (s.thr t).pc ≠ .start → (s.thr u).pc ≠ .start → t = u
      | _ => True) := by
    intro n t u
    match n with
    | 0 | 1 | 2 | 3 | 4 | 5 | 6 | 7 | 8 =>
      match t, u with
      | 0, 0 | 1, 1 => exact match run _ _ with | .running _ => fun _ _ => rfl | .ub => trivial | .terminated => trivial
      | 0, 1 | 1, 0 => simp [run, step, rearInit, Sys.setThr, adds, List.finRange]
  intro pre post e s hs t u h1 h2
  have hl : pre.length < 9 := by
    have := congrArg List.length e
    simp at this
    omega
  have := H ⟨pre.length, hl⟩ t u
  simp only [e, List.take_left'] at this
  rw [hs] at this
  exact this h1 h2

end Concurrency
end Verif
