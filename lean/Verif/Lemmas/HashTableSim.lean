import Verif.Lemmas.HashTableIter

/-! # Helper lemmas: simulation of operation sequences by the abstract map -/

namespace Verif.HT
open Verif.Spec

variable {K V : Type}

theorem ofNat_pred (n : Nat) (h : 0 < n) : UInt64.ofNat n - 1 = UInt64.ofNat (n - 1) := by
  obtain ⟨k, rfl⟩ : ∃ k, n = k + 1 := ⟨n - 1, by omega⟩
  rw [UInt64.ofNat_add]
  simp

theorem ofNat_eq_zero (n : Nat) (h : n < 2 ^ 64) : UInt64.ofNat n = 0 ↔ n = 0 := by
  constructor
  · intro h'
    have := congrArg UInt64.toNat h'
    rw [UInt64.toNat_ofNat_of_lt' h] at this
    simpa using this
  · rintro rfl; rfl

/-- `t` represents `m` and its counter shows `cnt`. -/
structure Sim (hash : K → Nat) (eq : K → K → Bool) (t : Table K V) (m : Map.M K V) (cnt : Nat) : Prop where
  inv : Inv t
  hash_eq : t.hash = hash
  eq_eq : t.eq = eq
  abs_eq : abs t = m
  elems : t.elements = UInt64.ofNat cnt
  le : chainTotal t ≤ cnt

/-- Change of the counter by one call. -/
def delta (m : Map.M K V) : Op K V → Int
  | .insert k _ => if Map.live m k then 0 else 1
  | .remove k => if Map.live m k then -1 else 0
  | _ => 0

def isClear : Op K V → Bool
  | .clear => true
  | _ => false

theorem sim_new (size : Nat) (hs : 0 < size) (hash : K → Nat) (eq : K → K → Bool) :
    Sim hash eq (HTnew (V := V) size hash eq) Map.empty 0 where
  inv := inv_new size hs hash eq
  hash_eq := rfl
  eq_eq := rfl
  abs_eq := abs_new size hash eq
  elems := rfl
  le := by simp [chainTotal, HTnew]

theorem live_pos {t : Table K V} (h : Inv t) {k : K} (hl : Map.live (abs t) k = true) : 0 < chainTotal t := by
  obtain ⟨e, he⟩ := Option.isSome_iff_exists.mp hl
  rw [← flat_length]
  exact List.length_pos_of_mem (h.mem_of_abs k e he).1

theorem step_sim {hash : K → Nat} {eq : K → K → Bool} (H : Map.KeyFns hash eq) {t t' : Table K V}
    {m : Map.M K V} {cnt : Nat} (s : Sim hash eq t m cnt) (hb : cnt < 2 ^ 64) (op : Op K V)
    (hs : step t op = .ok t') :
    ∃ cnt', Sim hash eq t' (Map.step eq m op) cnt' ∧ (cnt' : Int) = cnt + delta m op ∧ t'.size = t.size ∧
      (isClear op = false → chainTotal t = cnt → chainTotal t' = cnt') := by
  have H' : Map.KeyFns t.hash t.eq := by rw [s.hash_eq, s.eq_eq]; exact H
  have hz : t.elements = 0 → flat t = [] := by
    intro h0
    rw [s.elems, ofNat_eq_zero _ hb] at h0
    have := s.le
    exact List.eq_nil_of_length_eq_zero (by rw [flat_length]; omega)
  cases op with
  | insert k v =>
    obtain ⟨t'', h1, hinv, hh, he, hsz, ha, hel, htot⟩ := insert_spec H' s.inv k v
    simp only [step] at hs
    rw [h1] at hs
    cases hs
    rw [s.abs_eq] at ha hel htot
    have hle := s.le
    cases hl : Map.live m k
    · simp only [hl, if_false, Bool.false_eq_true] at hel htot
      refine ⟨cnt + 1, ⟨hinv, by rw [hh, s.hash_eq], by rw [he, s.eq_eq], by rw [ha, s.eq_eq]; rfl, ?_, by omega⟩, ?_, hsz, ?_⟩
      · rw [hel, s.elems, UInt64.ofNat_add]; rfl
      · simp [delta, hl]
      · intro _ h; omega
    · simp only [hl, if_true] at hel htot
      refine ⟨cnt, ⟨hinv, by rw [hh, s.hash_eq], by rw [he, s.eq_eq], by rw [ha, s.eq_eq]; rfl, ?_, by omega⟩, ?_, hsz, ?_⟩
      · rw [hel, s.elems]
      · simp [delta, hl]
      · intro _ h; omega
  | remove k =>
    simp only [step, Res.bind_eq_ok] at hs
    obtain ⟨⟨t1, r⟩, hr, h1⟩ := hs
    simp only [Res.ok.injEq] at h1
    subst h1
    obtain ⟨hinv, hh, he, hsz, ha, _, hel, htot⟩ := remove_spec H' s.inv k _ r hr
    have hle := s.le
    have hp : Map.live (abs t) k = true → 0 < chainTotal t := fun h => live_pos s.inv h
    rw [s.abs_eq] at ha hel htot hp
    cases hl : Map.live m k
    · simp only [hl, if_false, Bool.false_eq_true] at hel htot
      refine ⟨cnt, ⟨hinv, by rw [hh, s.hash_eq], by rw [he, s.eq_eq], by rw [ha, s.eq_eq]; rfl, ?_, by omega⟩, ?_, hsz, ?_⟩
      · rw [hel, s.elems]
      · simp [delta, hl]
      · intro _ h; omega
    · simp only [hl, if_true] at hel htot
      have := hp hl
      refine ⟨cnt - 1, ⟨hinv, by rw [hh, s.hash_eq], by rw [he, s.eq_eq], by rw [ha, s.eq_eq]; rfl, ?_, by omega⟩, ?_, hsz, ?_⟩
      · rw [hel, s.elems, ofNat_pred _ (by omega)]
      · simp only [delta, hl, if_true]; omega
      · intro _ h; omega
  | clear =>
    simp only [step] at hs
    cases hs
    refine ⟨cnt, ⟨clear_inv s.inv, s.hash_eq, s.eq_eq, by rw [clear_abs]; rfl, s.elems, ?_⟩, by simp [delta], rfl, ?_⟩
    · rw [clear_total]; omega
    · simp [isClear]
  | map f =>
    simp only [step] at hs
    cases hs
    rw [map_eq]
    refine ⟨cnt, ⟨mapKV_inv s.inv _, s.hash_eq, s.eq_eq, by rw [mapKV_abs, s.abs_eq]; rfl, s.elems, ?_⟩, by simp [delta], rfl, ?_⟩
    · rw [mapKV_total]; exact s.le
    · intro _ h; rw [mapKV_total]; exact h
  | mapWithKey f =>
    simp only [step] at hs
    cases hs
    refine ⟨cnt, ⟨mapKV_inv s.inv _, s.hash_eq, s.eq_eq, by rw [mapKV_abs, s.abs_eq]; rfl, s.elems, ?_⟩, by simp [delta], rfl, ?_⟩
    · rw [mapKV_total]; exact s.le
    · intro _ h; rw [mapKV_total]; exact h
  | iterUpdate f =>
    simp only [step] at hs
    have := iterUpdate_ok t t' f hs hz
    subst this
    refine ⟨cnt, ⟨mapKV_inv s.inv _, s.hash_eq, s.eq_eq, by rw [mapKV_abs, s.abs_eq]; rfl, s.elems, ?_⟩, by simp [delta], rfl, ?_⟩
    · rw [mapKV_total]; exact s.le
    · intro _ h; rw [mapKV_total]; exact h

theorem delta_le (m : Map.M K V) (op : Op K V) : delta m op ≤ 1 := by
  cases op <;> simp only [delta] <;> (try split) <;> decide

theorem run_sim {hash : K → Nat} {eq : K → K → Bool} (H : Map.KeyFns hash eq) (ops : List (Op K V)) :
    ∀ {t t' : Table K V} {m : Map.M K V} {cnt : Nat}, Sim hash eq t m cnt → cnt + ops.length < 2 ^ 64 →
    run t ops = .ok t' →
    ∃ cnt', Sim hash eq t' (Map.run eq m ops) cnt' ∧ (cnt' : Int) = cnt + Map.net eq m ops ∧ t'.size = t.size ∧
      cnt' < 2 ^ 64 ∧
      (Map.NoClear ops → chainTotal t = cnt → chainTotal t' = cnt') := by
  induction ops with
  | nil =>
    intro t t' m cnt s hb hr
    simp only [run] at hr
    cases hr
    exact ⟨cnt, s, by simp [Map.net], rfl, by simpa using hb, fun _ h => h⟩
  | cons op ops ih =>
    intro t t' m cnt s hb hr
    simp only [run, Res.bind_eq_ok] at hr
    obtain ⟨t1, h1, h2⟩ := hr
    simp only [List.length_cons] at hb
    obtain ⟨c1, s1, hc1, hz1, ht1⟩ := step_sim H s (by omega) op h1
    have := delta_le m op
    obtain ⟨c2, s2, hc2, hz2, hb2, ht2⟩ := ih s1 (by omega) h2
    refine ⟨c2, s2, ?_, by rw [hz2, hz1], hb2, ?_⟩
    · have hd : Map.net eq m (op :: ops) = delta m op + Map.net eq (Map.step eq m op) ops := by
        cases op <;> rfl
      omega
    · intro hn h
      simp only [Map.NoClear] at hn
      exact ht2 hn.2 (ht1 (by cases op <;> first | rfl | exact absurd hn.1 id) h)

theorem step_total {hash : K → Nat} {eq : K → K → Bool} (H : Map.KeyFns hash eq) {t : Table K V}
    {m : Map.M K V} {cnt : Nat} (s : Sim hash eq t m cnt) (hb : cnt < 2 ^ 64) (op : Op K V)
    (hr : match op with | .remove k => Map.live m k = true | _ => True)
    (hi : (match op with | .iterUpdate _ => True | _ => False) → chainTotal t = cnt) :
    ∃ t', step t op = .ok t' := by
  have H' : Map.KeyFns t.hash t.eq := by rw [s.hash_eq, s.eq_eq]; exact H
  cases op with
  | insert k v =>
    obtain ⟨t'', h1, _⟩ := insert_spec H' s.inv k v
    exact ⟨t'', h1⟩
  | remove k =>
    obtain ⟨r, h⟩ := remove_ok_of_live s.inv k (by rw [s.abs_eq]; exact hr)
    exact ⟨r.1, by simp [step, h]⟩
  | clear => exact ⟨_, rfl⟩
  | map f => exact ⟨_, rfl⟩
  | mapWithKey f => exact ⟨_, rfl⟩
  | iterUpdate f =>
    refine ⟨_, iterUpdate_eq t f ?_⟩
    rw [s.elems, ofNat_eq_zero _ hb, ← hi trivial, ← flat_length]
    exact List.length_eq_zero_iff

/-- Sequences that remove only live keys and do not combine `clear` with iteration run without fault. -/
theorem run_total {hash : K → Nat} {eq : K → K → Bool} (H : Map.KeyFns hash eq) (ops : List (Op K V)) :
    ∀ {t : Table K V} {m : Map.M K V} {cnt : Nat}, Sim hash eq t m cnt → cnt + ops.length < 2 ^ 64 →
    Map.RemovesLive eq m ops →
    (Map.NoClear ops ∧ chainTotal t = cnt ∨ Map.NoIter ops) → ∃ t', run t ops = .ok t' := by
  induction ops with
  | nil => intro t m cnt s hb hr hc; exact ⟨t, rfl⟩
  | cons op ops ih =>
    intro t m cnt s hb hr hc
    simp only [List.length_cons] at hb
    simp only [Map.RemovesLive] at hr
    obtain ⟨t1, h1⟩ := step_total H s (by omega) op hr.1 (by
      rcases hc with hc | hc
      · exact fun _ => hc.2
      · simp only [Map.NoIter] at hc
        intro h; cases op <;> simp_all)
    obtain ⟨c1, s1, hc1, hz1, ht1⟩ := step_sim H s (by omega) op h1
    have := delta_le m op
    obtain ⟨t2, h2⟩ := ih s1 (by omega) hr.2 (by
      rcases hc with hc | hc
      · left
        simp only [Map.NoClear] at hc
        exact ⟨hc.1.2, ht1 (by have := hc.1.1; cases op <;> first | rfl | exact absurd this id) hc.2⟩
      · right; exact hc.2)
    exact ⟨t2, by simp [run, h1, h2]⟩

/-- The number of live keys is unique. -/
theorem liveCount_le {hash : K → Nat} {eq : K → K → Bool} (H : Map.KeyFns hash eq) (L1 : List K) :
    ∀ L2 : List K, L1.Pairwise (fun a b => eq a b = false) → (∀ a ∈ L1, ∃ b ∈ L2, eq a b = true) →
      L1.length ≤ L2.length := by
  induction L1 with
  | nil => intros; simp
  | cons a L1 ih =>
    intro L2 hp hs
    rw [List.pairwise_cons] at hp
    obtain ⟨b, hb, hab⟩ := hs a (by simp)
    obtain ⟨l, r, rfl⟩ := List.append_of_mem hb
    have := ih (l ++ r) hp.2 (by
      intro x hx
      obtain ⟨y, hy, hxy⟩ := hs x (by simp [hx])
      simp only [List.mem_append, List.mem_cons] at hy
      rcases hy with hy | rfl | hy
      · exact ⟨y, by simp [hy], hxy⟩
      · have h1 := H.trans _ _ _ hab (H.symm _ _ hxy)
        have h2 := hp.1 x hx
        simp [h1] at h2
      · exact ⟨y, by simp [hy], hxy⟩)
    simp at this ⊢
    omega

theorem liveCount_unique {hash : K → Nat} {eq : K → K → Bool} (H : Map.KeyFns hash eq) {m : Map.M K V}
    {n1 n2 : Nat} (h1 : Map.LiveCount eq m n1) (h2 : Map.LiveCount eq m n2) : n1 = n2 := by
  obtain ⟨L1, rfl, p1, q1⟩ := h1
  obtain ⟨L2, rfl, p2, q2⟩ := h2
  have aux : ∀ (A B : List K), (∀ q, Map.live m q = true ↔ ∃ k ∈ A, eq k q = true) →
      (∀ q, Map.live m q = true ↔ ∃ k ∈ B, eq k q = true) → ∀ a ∈ A, ∃ b ∈ B, eq a b = true := by
    intro A B hA hB a ha
    obtain ⟨b, hb, hba⟩ := (hB a).mp ((hA a).mpr ⟨a, ha, H.refl a⟩)
    exact ⟨b, hb, H.symm _ _ hba⟩
  exact Nat.le_antisymm (liveCount_le H L1 L2 p1 (aux _ _ q1 q2)) (liveCount_le H L2 L1 p2 (aux _ _ q2 q1))

/-! ### Copying -/

/-- Inserting a list of pairs into a table. -/
theorem foldRes_insert {hash : K → Nat} {eq : K → K → Bool} (H : Map.KeyFns hash eq)
    (g : Entry K V → Entry K V) (L : List (Entry K V)) :
    ∀ {t : Table K V} {m : Map.M K V} {cnt : Nat}, Sim hash eq t m cnt → cnt + L.length < 2 ^ 64 →
      chainTotal t = cnt →
      ∃ t', foldRes (fun new e => HTinsert new (g e).1 (g e).2) t L = .ok t' ∧
        Sim hash eq t' (L.foldl (fun m e => Map.insert eq m (g e).1 (g e).2) m) (chainTotal t') ∧
        t'.size = t.size := by
  induction L with
  | nil => intro t m cnt s hb ht; exact ⟨t, rfl, by rw [ht]; exact s, rfl⟩
  | cons e L ih =>
    intro t m cnt s hb ht
    simp only [List.length_cons] at hb
    have H' : Map.KeyFns t.hash t.eq := by rw [s.hash_eq, s.eq_eq]; exact H
    obtain ⟨t1, h1, _⟩ := insert_spec H' s.inv (g e).1 (g e).2
    obtain ⟨c1, s1, hc1, hz1, ht1⟩ := step_sim H s (by omega) (.insert (g e).1 (g e).2) h1
    have := delta_le m (.insert (g e).1 (g e).2)
    obtain ⟨t2, h2, s2, hz2⟩ := ih s1 (by omega) (ht1 rfl ht)
    refine ⟨t2, ?_, s2, by rw [hz2, hz1]⟩
    simp only [foldRes, h1, Res.bind_ok, h2]

theorem foldl_insert {hash : K → Nat} {eq : K → K → Bool} (H : Map.KeyFns hash eq)
    (g : Entry K V → Entry K V) (hg : ∀ a b : Entry K V, eq (g a).1 (g b).1 = eq a.1 b.1) (L : List (Entry K V))
    (hp : L.Pairwise (fun a b => eq a.1 b.1 = false)) :
    ∀ (m : Map.M K V) (q : K), (∀ e ∈ L, m (g e).1 = none) →
      (L.foldl (fun m e => Map.insert eq m (g e).1 (g e).2) m) q =
        match L.find? (fun e => eq (g e).1 q) with
        | some e => some (g e)
        | none => m q := by
  induction L with
  | nil => intro m q _; rfl
  | cons a L ih =>
    intro m q hm
    rw [List.pairwise_cons] at hp
    simp only [List.foldl_cons]
    rw [ih hp.2 _ q]
    · rw [find_cons]
      by_cases haq : eq (g a).1 q = true
      · have hn : L.find? (fun e => eq (g e).1 q) = none := by
          rw [List.find?_eq_none]
          intro e he heq
          have h1 : eq (g a).1 (g e).1 = true := H.trans _ _ _ haq (H.symm _ _ heq)
          rw [hg, hp.1 e he] at h1
          simp at h1
        simp [hn, haq, Map.insert, hm a (by simp)]
      · simp only [haq, if_false, Bool.false_eq_true]
        cases L.find? (fun e => eq (g e).1 q) <;> simp [Map.insert, haq]
    · intro e he
      simp only [Map.insert, hg, hp.1 e he, Bool.false_eq_true, if_false]
      exact hm e (by simp [he])

/-- The counter is zero exactly for an empty table when `HTclear` was not used. -/
theorem count_zero_iff {hash : K → Nat} {eq : K → K → Bool} {t : Table K V} {m : Map.M K V} {c : Nat}
    (s : Sim hash eq t m c) (hb : c < 2 ^ 64) (ht : chainTotal t = c) : t.elements = 0 ↔ flat t = [] := by
  rw [s.elems, ofNat_eq_zero _ hb, ← ht, ← flat_length]
  exact List.length_eq_zero_iff

end Verif.HT
