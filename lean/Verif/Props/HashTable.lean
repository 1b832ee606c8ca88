import Verif.Lemmas.HashTableSim

/-!
# Properties C01 – C06: the hash table of `palm`

All theorems quantify over every bucket count, every pair of hash and equality functions satisfying
`Map.KeyFns`, and every sequence of fewer than 2^64 API calls.
-/

namespace Verif.Props
open Verif.HT Verif.Spec

variable {K V : Type}

/-- Sample key functions used by the non-vacuity examples: keys are numbers, all hash values collide mod 3. -/
theorem sampleKeys : Map.KeyFns (fun n : Nat => 3 * n) (fun a b => a == b) where
  refl := by simp
  symm := by simp
  trans := by simp
  hash_congr := by simp

/-! ## C01 -/

/-- C01: whatever calls were made, every lookup afterwards returns what the abstract map says. -/
theorem C01_table_is_map {hash : K → Nat} {eq : K → K → Bool} (H : Map.KeyFns hash eq) (size : Nat)
    (hs : 0 < size) (ops : List (Op K V)) (hl : ops.length < 2 ^ 64) (t : Table K V)
    (hr : run (HTnew size hash eq) ops = .ok t) (q : K) :
    HTlookup t q = .ok (Map.get (Map.run eq Map.empty ops) q) := by
  obtain ⟨c, s, _⟩ := run_sim H ops (sim_new size hs hash eq) (by omega) hr
  rw [lookup_eq s.inv, s.abs_eq]

example : run (HTnew (V := Nat) 3 (fun n : Nat => 3 * n) (fun a b => a == b))
    [.insert 1 (some 10), .insert 2 (some 20), .remove 1, .insert 4 none, .insert 2 (some 21)] =
    .ok { hash := fun n : Nat => 3 * n, eq := fun a b => a == b, size := 3,
          buckets := [[(2, some 21), (4, none)], [], []], elements := 2 } := rfl

/-- C01: the calls themselves succeed (no undefined behaviour, no failed assertion) if only live keys are removed
and `HTclear` is not combined with iteration. -/
theorem C01_no_fault {hash : K → Nat} {eq : K → K → Bool} (H : Map.KeyFns hash eq) (size : Nat)
    (hs : 0 < size) (ops : List (Op K V)) (hl : ops.length < 2 ^ 64)
    (hrem : Map.RemovesLive eq Map.empty ops) (hc : Map.NoClear ops ∨ Map.NoIter ops) :
    ∃ t, run (HTnew size hash eq) ops = .ok t := by
  refine run_total H ops (sim_new size hs hash eq) (by omega) hrem ?_
  rcases hc with hc | hc
  · exact .inl ⟨hc, by simp [chainTotal, HTnew]⟩
  · exact .inr hc

example : Map.RemovesLive (V := Nat) (fun a b : Nat => a == b) Map.empty
      [.insert 1 (some 10), .iterUpdate (fun _ v => v), .remove 1] ∧
    (Map.NoClear (K := Nat) (V := Nat) [.insert 1 (some 10), .iterUpdate (fun _ v => v), .remove 1]) := by
  simp [Map.RemovesLive, Map.NoClear, Map.step, Map.live, Map.insert, Map.mapVals]

/-- C01: an operation on one key does not disturb another key. -/
theorem C01_frame {hash : K → Nat} {eq : K → K → Bool} (H : Map.KeyFns hash eq) (size : Nat)
    (hs : 0 < size) (ops : List (Op K V)) (hl : ops.length + 1 < 2 ^ 64) (t t' : Table K V) (k q : K)
    (hkq : eq k q = false) (hr : run (HTnew size hash eq) ops = .ok t) :
    (∀ v, HTinsert t k v = .ok t' → HTlookup t' q = HTlookup t q) ∧
    (∀ r, HTremove t k = .ok (t', r) → HTlookup t' q = HTlookup t q) := by
  obtain ⟨c, s, _, _, hb, _⟩ := run_sim H ops (sim_new size hs hash eq) (by omega) hr
  constructor
  · intro v hv
    obtain ⟨c', s', _⟩ := step_sim H s hb (.insert k v) hv
    rw [lookup_eq s.inv, lookup_eq s'.inv, s.abs_eq, s'.abs_eq]
    simp [Map.step, Map.insert, Map.get, hkq]
  · intro r hv
    obtain ⟨c', s', _⟩ := step_sim H s hb (.remove k) (t' := t') (by simp [step, hv])
    rw [lookup_eq s.inv, lookup_eq s'.inv, s.abs_eq, s'.abs_eq]
    simp [Map.step, Map.remove, Map.get, hkq]

example : ((3 : Nat) == 6) = false ∧ 3 * 3 % 3 = 3 * 6 % 3 := by decide

/-- C01: removal returns the value the key had. -/
theorem C01_remove_returns {hash : K → Nat} {eq : K → K → Bool} (H : Map.KeyFns hash eq) (size : Nat)
    (hs : 0 < size) (ops : List (Op K V)) (hl : ops.length < 2 ^ 64) (t t' : Table K V) (k : K) (r : Option V)
    (hr : run (HTnew size hash eq) ops = .ok t) (hrem : HTremove t k = .ok (t', r)) :
    HTlookup t k = .ok r ∧ HTlookup t' k = .ok none := by
  obtain ⟨c, s, _⟩ := run_sim H ops (sim_new size hs hash eq) (by omega) hr
  have H' : Map.KeyFns t.hash t.eq := by rw [s.hash_eq, s.eq_eq]; exact H
  obtain ⟨hinv, hh, he, _, ha, hv, _⟩ := remove_spec H' s.inv k t' r hrem
  rw [lookup_eq s.inv, lookup_eq hinv, hv, ha]
  simp [Map.get, Map.remove, H'.refl]

example : ∃ t t' : Table Nat Nat,
    run (HTnew 3 (fun n : Nat => 3 * n) (fun a b => a == b)) [.insert 1 (some 10), .insert 2 (some 20)] = .ok t ∧
    HTremove t 1 = .ok (t', some 10) := ⟨_, _, rfl, rfl⟩

/-! ## C02 -/

/-- C02 is false: after `HTinsert`, `HTclear` no key is live but the count is 1. -/
theorem C02_count_false : ∃ (ops : List (Op Nat Nat)) (t : Table Nat Nat),
    run (HTnew 1 (fun n => n) (fun a b => a == b)) ops = .ok t ∧
    Map.LiveCount (fun a b => a == b) (Map.run (fun a b => a == b) Map.empty ops) 0 ∧
    HTelementCount t = 1 := by
  refine ⟨[.insert 0 none, .clear], _, rfl, ⟨[], rfl, List.Pairwise.nil, ?_⟩, rfl⟩
  simp [Map.run, Map.step, Map.live, Map.empty]

/-- C02, partial: holds for sequences without `HTclear`.  Missing: sequences with `HTclear`, for which the claim is
false (`C02_count_false`). -/
theorem C02_count_partial {hash : K → Nat} {eq : K → K → Bool} (H : Map.KeyFns hash eq) (size : Nat)
    (hs : 0 < size) (ops : List (Op K V)) (hl : ops.length < 2 ^ 64) (hc : Map.NoClear ops) (t : Table K V)
    (hr : run (HTnew size hash eq) ops = .ok t) (n : Nat)
    (hn : Map.LiveCount eq (Map.run eq Map.empty ops) n) :
    (HTelementCount t).toNat = n := by
  obtain ⟨c, s, _, _, hb, ht⟩ := run_sim H ops (sim_new size hs hash eq) (by omega) hr
  have ht := ht hc (by simp [chainTotal, HTnew])
  have H' : Map.KeyFns t.hash t.eq := by rw [s.hash_eq, s.eq_eq]; exact H
  have hc := s.inv.liveCount H'
  rw [s.abs_eq, s.eq_eq] at hc
  rw [liveCount_unique H hn hc, HTelementCount, s.elems, UInt64.toNat_ofNat_of_lt' hb, ht]

example : Map.LiveCount (V := Nat) (fun a b : Nat => a == b)
    (Map.run (fun a b => a == b) Map.empty [.insert 7 none, .insert 8 none, .insert 7 none]) 2 :=
  ⟨[7, 8], rfl, by simp, by
    intro q
    simp only [Map.run, Map.step, Map.live, Map.insert, Map.empty]
    by_cases h7 : 7 = q <;> by_cases h8 : 8 = q <;> simp [h7, h8] <;> omega⟩

/-- C02: what the counter does show, for every sequence: first insertions minus removals of live keys. -/
theorem C02_count_net {hash : K → Nat} {eq : K → K → Bool} (H : Map.KeyFns hash eq) (size : Nat)
    (hs : 0 < size) (ops : List (Op K V)) (hl : ops.length < 2 ^ 64) (t : Table K V)
    (hr : run (HTnew size hash eq) ops = .ok t) :
    ((HTelementCount t).toNat : Int) = Map.net eq Map.empty ops := by
  obtain ⟨c, s, hc, _, hb, _⟩ := run_sim H ops (sim_new size hs hash eq) (by omega) hr
  rw [HTelementCount, s.elems, UInt64.toNat_ofNat_of_lt' hb, hc]; simp

example : Map.net (V := Nat) (fun a b : Nat => a == b) Map.empty
    [.insert 7 none, .insert 8 none, .clear, .insert 7 none] = 3 := by decide

/-! ## C03 -/

/-- C03 is false: removing any key from a fresh table is undefined behaviour. -/
theorem C03_remove_absent_false : ∃ (ops : List (Op Nat Nat)) (t : Table Nat Nat) (k : Nat),
    run (HTnew 1 (fun n => n) (fun a b => a == b)) ops = .ok t ∧
    Map.live (Map.run (fun a b => a == b) Map.empty ops) k = false ∧
    (HTremove t k).isUB = true :=
  ⟨[], _, 5, rfl, rfl, rfl⟩

/-- C03, exact: removing an absent key is a no-op returning NULL when some live key lies in the same bucket, and
undefined behaviour otherwise.  Partial: the property demands the no-op in both cases. -/
theorem C03_remove_absent_partial {hash : K → Nat} {eq : K → K → Bool} (H : Map.KeyFns hash eq) (size : Nat)
    (hs : 0 < size) (ops : List (Op K V)) (hl : ops.length < 2 ^ 64) (t : Table K V)
    (hr : run (HTnew size hash eq) ops = .ok t) (k : K)
    (hk : Map.live (Map.run eq Map.empty ops) k = false) :
    ((∃ k', Map.live (Map.run eq Map.empty ops) k' = true ∧ hash k' % size = hash k % size) →
      HTremove t k = .ok (t, none)) ∧
    ((¬ ∃ k', Map.live (Map.run eq Map.empty ops) k' = true ∧ hash k' % size = hash k % size) →
      (HTremove t k).isUB = true) := by
  obtain ⟨c, s, _, hsz, _⟩ := run_sim H ops (sim_new size hs hash eq) (by omega) hr
  have H' : Map.KeyFns t.hash t.eq := by rw [s.hash_eq, s.eq_eq]; exact H
  have hsz : t.size = size := hsz
  rw [← s.abs_eq] at hk ⊢
  have hh := s.hash_eq
  have hnone : (bucketOf t k).find? (fun e => t.eq e.1 k) = none := by
    simpa [Map.live, abs] using hk
  constructor
  · rintro ⟨k', hk', hb⟩
    cases hbk : bucketOf t k with
    | nil =>
      have : bucketOf t k' = bucketOf t k := by simp [bucketOf, hh, hsz, hb]
      simp [Map.live, abs, this, hbk] at hk'
    | cons e rest =>
      rw [hbk, find_cons] at hnone
      have h1 : t.eq e.1 k = false := by
        cases h : t.eq e.1 k
        · rfl
        · simp [h] at hnone
      simp only [h1, Bool.false_eq_true, if_false] at hnone
      have h2 := removeRest_val (eq := t.eq) k rest
      rw [hnone] at h2
      simp only [HTremove, s.inv.index, s.inv.chainAt, Res.bind_ok, hbk, h1, Bool.false_eq_true, if_false, h2]
      rfl
  · intro hno
    cases hbk : bucketOf t k with
    | nil => simp [HTremove, s.inv.index, s.inv.chainAt, Res.bind_ok, hbk, Res.isUB]
    | cons e rest =>
      exfalso
      apply hno
      have he : e ∈ bucketOf t k := by simp [hbk]
      refine ⟨e.1, ?_, ?_⟩
      · have := s.inv.abs_mem H' e (List.mem_flatten.mpr ⟨_, s.inv.mem k, he⟩)
        simp [Map.live, this]
      · have := place_bucket s.inv k e he
        rw [hh, hsz] at this
        exact this

example : Map.live (Map.run (V := Nat) (fun a b : Nat => a == b) Map.empty [.insert 4 (some 1)]) 1 = false ∧
    Map.live (Map.run (V := Nat) (fun a b : Nat => a == b) Map.empty [.insert 4 (some 1)]) 4 = true ∧
    3 * 4 % 3 = 3 * 1 % 3 := by decide

/-! ## C04 -/

/-- C04 is false: after `HTclear` no key is live, yet `HTiterate` hits its assertion instead of returning NULL. -/
theorem C04_iterate_false : ∃ (ops : List (Op Nat Nat)) (t : Table Nat Nat),
    run (HTnew 1 (fun n => n) (fun a b => a == b)) ops = .ok t ∧
    (∀ q, Map.live (Map.run (fun a b => a == b) Map.empty ops) q = false) ∧
    (HTiterate t).isAbort = true :=
  ⟨[.insert 0 none, .clear], _, rfl, fun _ => rfl, rfl⟩

/-- C04, partial: without `HTclear`, the client loop over `HTiterate`/`HTiterateNext` yields exactly the live pairs,
each once; `HTfold` sees the values of the same pairs in the same order.  Missing: sequences with `HTclear`
(`C04_iterate_false`). -/
theorem C04_iterate_partial {hash : K → Nat} {eq : K → K → Bool} (H : Map.KeyFns hash eq) (size : Nat)
    (hs : 0 < size) (ops : List (Op K V)) (hl : ops.length < 2 ^ 64) (hc : Map.NoClear ops) (t : Table K V)
    (hr : run (HTnew size hash eq) ops = .ok t) :
    ∃ L, collect t = .ok L ∧ Map.Enumerates eq (Map.run eq Map.empty ops) L ∧
      (∀ (A : Type) (f : A → Option V → A) (a : A), HTfold t f a = (L.map (·.2)).foldl f a) ∧
      (HTiterate t = .ok none ↔ L = []) := by
  obtain ⟨c, s, _, _, hb, ht⟩ := run_sim H ops (sim_new size hs hash eq) (by omega) hr
  have ht := ht hc (by simp [chainTotal, HTnew])
  have H' : Map.KeyFns t.hash t.eq := by rw [s.hash_eq, s.eq_eq]; exact H
  have hz := count_zero_iff s hb ht
  refine ⟨flat t, ?_, ?_, ?_, ?_⟩
  · simp only [collect]
    rw [forEach_read t (fun acc e => .ok (acc ++ [e])) _ _ hz]
    · have : ∀ (l acc : List (Entry K V)), foldRes (fun acc e => .ok (acc ++ [e])) acc l = .ok (acc ++ l) := by
        intro l
        induction l with
        | nil => intro acc; simp [foldRes]
        | cons a l ih => intro acc; simp [foldRes, ih]
      rw [this]; simp [Res.bind]
    · intro t' s it e he
      simp [HTiterKey, HTiterValue, he, Res.bind]
  · have := s.inv.enumerates H'
    rw [s.eq_eq, s.abs_eq] at this
    exact this
  · intro A f a
    simp only [HTfold, flat]
    generalize t.buckets = bs
    induction bs generalizing a with
    | nil => rfl
    | cons c bs ih => simp only [List.foldl_cons, ih, List.flatten_cons, List.map_append, List.foldl_append, List.foldl_map]
  · rcases iterate_cases t with ⟨h0, hi⟩ | ⟨h0, hpe, w, hi⟩ | ⟨h0, es, e, c', post, hes, hb', hi⟩
    · simp [hi, hz.mp h0]
    · exact absurd (hz.mpr (flatten_empties _ hpe)) h0
    · simp [hi, mt hz.mpr h0]

example : (run (HTnew (V := Nat) 2 (fun n : Nat => n) (fun a b => a == b))
    [.insert 3 (some 30), .insert 2 (some 20), .insert 5 (some 50)]).bind collect =
    .ok [(2, some 20), (3, some 30), (5, some 50)] := rfl

/-- C04: `HTmapWithDataAndKey` calls its function once per entry in the same order, threading `data`, and stores
the results. -/
theorem C04_map_with_data {D : Type} (t : Table K V) (data : D) (f : D → K → Option V → D × Option V) :
    (flat (HTmapWithDataAndKey t data f).1, (HTmapWithDataAndKey t data f).2) =
      (flat t).foldl (fun (acc : List (Entry K V) × D) e =>
        (acc.1 ++ [(e.1, (f acc.2 e.1 e.2).2)], (f acc.2 e.1 e.2).1)) ([], data) := by
  have chain : ∀ (c : List (Entry K V)) (acc0 acc : List (Entry K V)) (d : D),
      c.foldl (fun (acc : List (Entry K V) × D) e =>
        (acc.1 ++ [(e.1, (f acc.2 e.1 e.2).2)], (f acc.2 e.1 e.2).1)) (acc0 ++ acc, d) =
      (acc0 ++ (c.foldl (fun (acc : List (Entry K V) × D) e =>
        (acc.1 ++ [(e.1, (f acc.2 e.1 e.2).2)], (f acc.2 e.1 e.2).1)) (acc, d)).1,
       (c.foldl (fun (acc : List (Entry K V) × D) e =>
        (acc.1 ++ [(e.1, (f acc.2 e.1 e.2).2)], (f acc.2 e.1 e.2).1)) (acc, d)).2) := by
    intro c
    induction c with
    | nil => intros; rfl
    | cons e c ih =>
      intro acc0 acc d
      simp only [List.foldl_cons, List.append_assoc]
      rw [ih]
  have main : ∀ (bs acc : List (List (Entry K V))) (d : D),
      (((bs.foldl (fun (acc : List (List (Entry K V)) × D) c =>
          (acc.1 ++ [(c.foldl (fun (acc : List (Entry K V) × D) e =>
            (acc.1 ++ [(e.1, (f acc.2 e.1 e.2).2)], (f acc.2 e.1 e.2).1)) ([], acc.2)).1],
           (c.foldl (fun (acc : List (Entry K V) × D) e =>
            (acc.1 ++ [(e.1, (f acc.2 e.1 e.2).2)], (f acc.2 e.1 e.2).1)) ([], acc.2)).2)) (acc, d)).1.flatten,
        (bs.foldl (fun (acc : List (List (Entry K V)) × D) c =>
          (acc.1 ++ [(c.foldl (fun (acc : List (Entry K V) × D) e =>
            (acc.1 ++ [(e.1, (f acc.2 e.1 e.2).2)], (f acc.2 e.1 e.2).1)) ([], acc.2)).1],
           (c.foldl (fun (acc : List (Entry K V) × D) e =>
            (acc.1 ++ [(e.1, (f acc.2 e.1 e.2).2)], (f acc.2 e.1 e.2).1)) ([], acc.2)).2)) (acc, d)).2) : List (Entry K V) × D) =
      bs.flatten.foldl (fun (acc : List (Entry K V) × D) e =>
        (acc.1 ++ [(e.1, (f acc.2 e.1 e.2).2)], (f acc.2 e.1 e.2).1)) (acc.flatten, d) := by
    intro bs
    induction bs with
    | nil => intros; rfl
    | cons c bs ih =>
      intro acc d
      simp only [List.foldl_cons, List.flatten_cons, List.foldl_append]
      rw [ih]
      have := chain c acc.flatten [] d
      simp only [List.append_nil] at this
      rw [this]
      simp
  exact main t.buckets [] data

/-! ## C05 -/

/-- C05 is false: copying a table that was cleared hits an assertion. -/
theorem C05_copy_false : ∃ (ops : List (Op Nat Nat)) (t : Table Nat Nat),
    run (HTnew 1 (fun n => n) (fun a b => a == b)) ops = .ok t ∧ (HTcpy t).isAbort = true :=
  ⟨[.insert 0 none, .clear], _, rfl, rfl⟩

/-- C05, partial (no `HTclear` before): `HTdeep_copy` with copy functions that preserve key identity maps every
copied key to the copied value, contains nothing else, and has the same number of elements. -/
theorem C05_deep_copy_partial {hash : K → Nat} {eq : K → K → Bool} (H : Map.KeyFns hash eq) (size : Nat)
    (hs : 0 < size) (ops : List (Op K V)) (hl : ops.length < 2 ^ 64) (hc : Map.NoClear ops) (t : Table K V)
    (hr : run (HTnew size hash eq) ops = .ok t) (fk : K → K) (fv : Option V → Option V)
    (hfk : ∀ a b, eq (fk a) (fk b) = eq a b) :
    ∃ t', HTdeep_copy t fk fv = .ok t' ∧
      (∀ q v, HTlookup t q = .ok v → Map.live (Map.run eq Map.empty ops) q = true → HTlookup t' (fk q) = .ok (fv v)) ∧
      (∀ q, (∀ k, Map.live (Map.run eq Map.empty ops) k = true → eq (fk k) q = false) → HTlookup t' q = .ok none) ∧
      HTelementCount t' = HTelementCount t := by
  obtain ⟨c, s, _, _, hb, ht⟩ := run_sim H ops (sim_new size hs hash eq) (by omega) hr
  have ht := ht hc (by simp [chainTotal, HTnew])
  have H' : Map.KeyFns t.hash t.eq := by rw [s.hash_eq, s.eq_eq]; exact H
  have hz := count_zero_iff s hb ht
  have hsz : 0 < t.size := s.inv.pos
  have hpw := s.inv.flat_pairwise H'
  rw [s.eq_eq] at hpw
  let g : Entry K V → Entry K V := fun e => (fk e.1, fv e.2)
  obtain ⟨t', h1, s', hz'⟩ := foldRes_insert H g (flat t)
    (sim_new (V := V) t.size hsz hash eq) (by rw [flat_length]; omega) (by simp [chainTotal, HTnew])
  have habs : ∀ q, abs t' q = match (flat t).find? (fun e => eq (fk e.1) q) with
      | some e => some (g e)
      | none => none := by
    intro q
    rw [s'.abs_eq]
    exact foldl_insert H g (fun a b => hfk _ _) (flat t) hpw Map.empty q (fun _ _ => rfl)
  have hcopy : HTdeep_copy t fk fv = .ok t' := by
    simp only [HTdeep_copy]
    rw [forEach_read t (fun new e => HTinsert new (g e).1 (g e).2) _ _ hz]
    · rw [s.hash_eq, s.eq_eq, h1]; simp [Res.bind]
    · intro t1 s1 it e he
      simp only [HTiterKey, HTiterValue, he, Res.bind_ok, g]
      rfl
  -- the copy has as many entries as the original
  have hcnt : chainTotal t' = chainTotal t := by
    have hp2 : (flat t).Pairwise (fun a b => eq (g a).1 (g b).1 = false) :=
      hpw.imp (fun {a b} h => by simpa [g, hfk] using h)
    have H2 : Map.KeyFns t'.hash t'.eq := by rw [s'.hash_eq, s'.eq_eq]; exact H
    have l2 := s'.inv.liveCount H2
    rw [s'.eq_eq] at l2
    have l1 : Map.LiveCount eq (abs t') (chainTotal t) := by
      refine ⟨(flat t).map (fun e => (g e).1), by rw [List.length_map, flat_length], ?_, ?_⟩
      · rw [List.pairwise_map]; exact hp2
      · intro q
        simp only [Map.live, habs]
        cases hf : (flat t).find? (fun e => eq (fk e.1) q) with
        | none =>
          simp only [Option.isSome_none, Bool.false_eq_true, false_iff]
          rintro ⟨k, hk, hkq⟩
          obtain ⟨e, he, rfl⟩ := List.mem_map.mp hk
          rw [List.find?_eq_none] at hf
          exact hf e he hkq
        | some e =>
          simp only [Option.isSome_some, true_iff]
          have h1 := List.find?_some hf
          exact ⟨(g e).1, List.mem_map.mpr ⟨e, List.mem_of_find?_eq_some hf, rfl⟩, h1⟩
    exact liveCount_unique H l2 l1
  refine ⟨t', hcopy, ?_, ?_, ?_⟩
  · intro q v hv hlq
    rw [lookup_eq s.inv] at hv
    rw [lookup_eq s'.inv]
    simp only [Map.get, habs, hfk]
    rw [← s.abs_eq] at hlq
    obtain ⟨e, he⟩ := Option.isSome_iff_exists.mp hlq
    obtain ⟨hmem, heq⟩ := s.inv.mem_of_abs q e he
    rw [s.eq_eq] at heq
    have hfe : (flat t).find? (fun x => eq x.1 q) = some e := by
      have aux : ∀ l : List (Entry K V), l.Pairwise (fun a b => eq a.1 b.1 = false) → e ∈ l →
          l.find? (fun x => eq x.1 q) = some e := by
        intro l
        induction l with
        | nil => intro _ h; simp at h
        | cons a l ih =>
          intro hp hm
          rw [List.pairwise_cons] at hp
          rw [find_cons]
          simp only [List.mem_cons] at hm
          rcases hm with rfl | hm
          · simp [heq]
          · have : eq a.1 q = false := by
              have := hp.1 e hm
              rwa [eq_right H heq] at this
            simp [this, ih hp.2 hm]
      exact aux _ hpw hmem
    rw [hfe]
    simp only [Map.get, he, Res.ok.injEq] at hv
    simp [g, hv]
  · intro q hq
    rw [lookup_eq s'.inv]
    have : (flat t).find? (fun e => eq (fk e.1) q) = none := by
      rw [List.find?_eq_none]
      intro e he h
      have h1 := s.inv.abs_mem H' e he
      have := hq e.1 (by rw [← s.abs_eq]; simp [Map.live, h1])
      simp [this] at h
    simp [Map.get, habs, this]
  · rw [HTelementCount, HTelementCount, s'.elems, s.elems, hcnt, ht]

example : ∀ a b : Nat, ((a + 5) == (b + 5)) = (a == b) := by simp

/-- C05, partial (no `HTclear` before): `HTcpy` agrees with the original on every key and on the count. -/
theorem C05_copy_partial {hash : K → Nat} {eq : K → K → Bool} (H : Map.KeyFns hash eq) (size : Nat)
    (hs : 0 < size) (ops : List (Op K V)) (hl : ops.length < 2 ^ 64) (hc : Map.NoClear ops) (t : Table K V)
    (hr : run (HTnew size hash eq) ops = .ok t) :
    ∃ t', HTcpy t = .ok t' ∧ (∀ q, HTlookup t' q = HTlookup t q) ∧ HTelementCount t' = HTelementCount t := by
  have hid : HTcpy t = HTdeep_copy t id id := rfl
  obtain ⟨t', h1, h2, h3, h4⟩ := C05_deep_copy_partial H size hs ops hl hc t hr id id (fun _ _ => rfl)
  refine ⟨t', by rw [hid, h1], ?_, h4⟩
  intro q
  have hq := C01_table_is_map H size hs ops hl t hr q
  cases hlv : Map.live (Map.run eq Map.empty ops) q with
  | true => rw [hq]; exact h2 q _ hq hlv
  | false =>
    rw [hq, h3 q]
    · have : (Map.run eq Map.empty ops) q = none := by simpa [Map.live] using hlv
      simp [Map.get, this]
    · intro k hk
      cases hkq : eq k q with
      | false => exact hkq
      | true =>
        obtain ⟨c, s, _⟩ := run_sim H ops (sim_new size hs hash eq) (by omega) hr
        have H' : Map.KeyFns t.hash t.eq := by rw [s.hash_eq, s.eq_eq]; exact H
        have := abs_congr H' k q (by rw [s.eq_eq]; exact hkq)
        rw [s.abs_eq] at this
        simp [Map.live, this] at hk hlv
        simp [hlv] at hk

example : (run (HTnew (V := Nat) 2 (fun n : Nat => n) (fun a b => a == b))
    [.insert 3 (some 30), .insert 2 (some 20), .insert 5 (some 50)]).bind HTcpy =
    .ok { hash := fun n : Nat => n, eq := fun a b => a == b, size := 2,
          buckets := [[(2, some 20)], [(3, some 30), (5, some 50)]], elements := 3 } := rfl

/-! ## C06 -/

/-- C06: string tables compare by content, coherently with their hash. -/
theorem C06_string_table : Map.KeyFns StringHash StringEqual ∧
    (∀ a b, StringEqual a b = true ↔ a = b) := by
  refine ⟨⟨?_, ?_, ?_, ?_⟩, ?_⟩ <;> simp [StringEqual]

/-- C06: int tables compare by value. -/
theorem C06_int_table : Map.KeyFns IntHash IntEqual ∧ (∀ a b, IntEqual a b = true ↔ a = b) := by
  refine ⟨⟨?_, ?_, ?_, ?_⟩, ?_⟩ <;> simp [IntEqual]

/-- C06: pointer tables compare by address. -/
theorem C06_ptr_table : Map.KeyFns PtrHash PtrEqual ∧ (∀ a b, PtrEqual a b = true ↔ a = b) := by
  refine ⟨⟨?_, ?_, ?_, ?_⟩, ?_⟩ <;> simp [PtrEqual]

/-- C06: so a string table is a map from string contents. -/
theorem C06_string_map (size : Nat) (hs : 0 < size) (ops : List (Op (List UInt8) V))
    (hl : ops.length < 2 ^ 64) (t : Table (List UInt8) V) (hr : run (HTnew_String size) ops = .ok t)
    (q : List UInt8) :
    HTlookup t q = .ok (Map.get (Map.run (fun a b => decide (a = b)) Map.empty ops) q) := by
  have he : StringEqual = (fun a b => decide (a = b)) := by
    funext a b; rw [Bool.eq_iff_iff, C06_string_table.2]; simp
  rw [← he]
  exact C01_table_is_map C06_string_table.1 size hs ops hl t hr q

/-- C06: so an int table is a map from int values. -/
theorem C06_int_map (size : Nat) (hs : 0 < size) (ops : List (Op Int32 V))
    (hl : ops.length < 2 ^ 64) (t : Table Int32 V) (hr : run (HTnew_Int size) ops = .ok t) (q : Int32) :
    HTlookup t q = .ok (Map.get (Map.run (fun a b => decide (a = b)) Map.empty ops) q) := by
  have he : IntEqual = (fun a b => decide (a = b)) := by
    funext a b; rw [Bool.eq_iff_iff, C06_int_table.2]; simp
  rw [← he]
  exact C01_table_is_map C06_int_table.1 size hs ops hl t hr q

/-- C06: so a pointer table is a map from addresses. -/
theorem C06_ptr_map (size : Nat) (hs : 0 < size) (ops : List (Op UInt64 V))
    (hl : ops.length < 2 ^ 64) (t : Table UInt64 V) (hr : run (HTnew_Ptr size) ops = .ok t) (q : UInt64) :
    HTlookup t q = .ok (Map.get (Map.run (fun a b => decide (a = b)) Map.empty ops) q) := by
  have he : PtrEqual = (fun a b => decide (a = b)) := by
    funext a b; rw [Bool.eq_iff_iff, C06_ptr_table.2]; simp
  rw [← he]
  exact C01_table_is_map C06_ptr_table.1 size hs ops hl t hr q

example : ∃ t, run (HTnew_Int (V := Nat) 10) [.insert (-3) (some 1), .insert 7 (some 2)] = .ok t ∧
    HTlookup t (-3) = .ok (some 1) := ⟨_, rfl, by decide⟩

end Verif.Props
