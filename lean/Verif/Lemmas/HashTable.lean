import Verif.Spec.HashTable

/-! # Helper lemmas for the hash table: invariant and simulation -/

namespace Verif.HT
open Verif.Spec

section Chain
variable {K V : Type} {eq : K → K → Bool} {hash : K → Nat}

theorem find_cons {α : Type} (p : α → Bool) (a : α) (l : List α) :
    (a :: l).find? p = if p a then some a else l.find? p := by
  rw [List.find?_cons]; cases p a <;> rfl

theorem insertChain_cons (k : K) (v : Option V) (e : Entry K V) (rest : List (Entry K V)) :
    insertChain eq k v (e :: rest) =
      if eq e.1 k then ((e.1, v) :: rest, false)
      else (e :: (insertChain eq k v rest).1, (insertChain eq k v rest).2) := by
  cases rest <;> simp [insertChain]

theorem lookupChain_eq (k : K) (c : List (Entry K V)) :
    lookupChain eq k c = (c.find? (fun e => eq e.1 k)).bind (·.2) := by
  induction c with
  | nil => rfl
  | cons e c ih => simp only [lookupChain, List.find?_cons]; split <;> simp_all

theorem eq_left (H : Map.KeyFns hash eq) {a b : K} (h : eq a b = true) (q : K) : eq a q = eq b q := by
  rw [Bool.eq_iff_iff]
  exact ⟨fun h' => H.trans _ _ _ (H.symm _ _ h) h', fun h' => H.trans _ _ _ h h'⟩

theorem eq_right (H : Map.KeyFns hash eq) {a b : K} (h : eq a b = true) (q : K) : eq q a = eq q b := by
  rw [Bool.eq_iff_iff]
  exact ⟨fun h' => H.trans _ _ _ h' h, fun h' => H.trans _ _ _ h' (H.symm _ _ h)⟩

theorem insertChain_find (H : Map.KeyFns hash eq) (k : K) (v : Option V) (c : List (Entry K V)) (q : K) :
    (insertChain eq k v c).1.find? (fun e => eq e.1 q) =
      if eq k q then some ((((c.find? (fun e => eq e.1 k))).map Prod.fst).getD k, v)
      else c.find? (fun e => eq e.1 q) := by
  induction c with
  | nil =>
    simp only [insertChain, List.find?_cons, List.find?_nil]
    split <;> simp_all
  | cons e c ih =>
    rw [insertChain_cons]
    by_cases hek : eq e.1 k = true
    · simp [hek, List.find?_cons, eq_left H hek q]
      cases eq k q <;> simp
    · simp only [hek, if_false, find_cons, ih, Bool.false_eq_true]
      by_cases hkq : eq k q = true
      · have : eq e.1 q = false := by
          rw [← eq_right H hkq]; simpa using hek
        simp [this, hkq]
      · simp [hkq]

theorem insertChain_key (k : K) (v : Option V) (c : List (Entry K V)) {e : Entry K V}
    (h : e ∈ (insertChain eq k v c).1) : e.1 = k ∨ ∃ e' ∈ c, e'.1 = e.1 := by
  induction c with
  | nil => simp [insertChain] at h; simp [h]
  | cons a c ih =>
    rw [insertChain_cons] at h
    split at h
    · simp at h
      rcases h with rfl | h
      · right; exact ⟨a, by simp, rfl⟩
      · right; exact ⟨e, by simp [h], rfl⟩
    · simp at h
      rcases h with rfl | h
      · right; exact ⟨e, by simp, rfl⟩
      · rcases ih h with h | ⟨e', h1, h2⟩
        · left; exact h
        · right; exact ⟨e', by simp [h1], h2⟩

theorem insertChain_pairwise (H : Map.KeyFns hash eq) (k : K) (v : Option V) (c : List (Entry K V))
    (hp : c.Pairwise (fun a b => eq a.1 b.1 = false)) :
    (insertChain eq k v c).1.Pairwise (fun a b => eq a.1 b.1 = false) := by
  induction c with
  | nil => simp [insertChain]
  | cons a c ih =>
    rw [insertChain_cons]
    rw [List.pairwise_cons] at hp
    split
    · rw [List.pairwise_cons]; exact hp
    · rename_i hak
      rw [List.pairwise_cons]
      refine ⟨?_, ih hp.2⟩
      intro e he
      rcases insertChain_key k v c he with h | ⟨e', h1, h2⟩
      · rw [h]; simpa using hak
      · rw [← h2]; exact hp.1 _ h1

theorem insertChain_length (k : K) (v : Option V) (c : List (Entry K V)) :
    (insertChain eq k v c).1.length = c.length + (if (insertChain eq k v c).2 then 1 else 0) := by
  induction c with
  | nil => simp [insertChain]
  | cons a c ih =>
    rw [insertChain_cons]
    split
    · simp
    · simp only [List.length_cons, ih]; omega

theorem insertChain_new (k : K) (v : Option V) (c : List (Entry K V)) :
    (insertChain eq k v c).2 = !(c.find? (fun e => eq e.1 k)).isSome := by
  induction c with
  | nil => simp [insertChain]
  | cons a c ih =>
    rw [insertChain_cons]
    by_cases h : eq a.1 k = true
    · simp [h, List.find?_cons]
    · simp [h, List.find?_cons, ih]

theorem removeRest_find (H : Map.KeyFns hash eq) (k : K) (c : List (Entry K V))
    (hp : c.Pairwise (fun a b => eq a.1 b.1 = false)) (q : K) :
    (removeRest eq k c).1.find? (fun e => eq e.1 q) =
      if eq k q then none else c.find? (fun e => eq e.1 q) := by
  induction c with
  | nil => simp [removeRest]
  | cons a c ih =>
    rw [List.pairwise_cons] at hp
    simp only [removeRest]
    by_cases h : eq a.1 k = true
    · simp only [h, if_true, find_cons]
      rw [eq_left H h q]
      by_cases hkq : eq k q = true
      · simp only [hkq, if_true]
        rw [List.find?_eq_none]
        intro e he
        have := hp.1 e he
        rw [eq_left H h] at this
        intro h'
        have h2 := H.trans _ _ _ hkq (H.symm _ _ h')
        simp_all
      · simp [hkq]
    · simp only [h, if_false, find_cons, ih hp.2, Bool.false_eq_true]
      by_cases hkq : eq k q = true
      · have : eq a.1 q = false := by rw [← eq_right H hkq]; simpa using h
        simp [this, hkq]
      · simp [hkq]

theorem removeRest_mem (k : K) (c : List (Entry K V)) {e : Entry K V}
    (h : e ∈ (removeRest eq k c).1) : e ∈ c := by
  induction c with
  | nil => simp [removeRest] at h
  | cons a c ih =>
    simp only [removeRest] at h
    split at h
    · simp [h]
    · simp at h; rcases h with rfl | h
      · simp
      · simp [ih h]

theorem removeRest_pairwise (k : K) (c : List (Entry K V))
    (hp : c.Pairwise (fun a b => eq a.1 b.1 = false)) :
    (removeRest eq k c).1.Pairwise (fun a b => eq a.1 b.1 = false) := by
  induction c with
  | nil => simp [removeRest]
  | cons a c ih =>
    rw [List.pairwise_cons] at hp
    simp only [removeRest]
    split
    · exact hp.2
    · rw [List.pairwise_cons]
      exact ⟨fun e he => hp.1 e (removeRest_mem k c he), ih hp.2⟩

theorem removeRest_val (k : K) (c : List (Entry K V)) :
    (removeRest eq k c).2 = (c.find? (fun e => eq e.1 k)).map (·.2) := by
  induction c with
  | nil => simp [removeRest]
  | cons a c ih =>
    simp only [removeRest]
    by_cases h : eq a.1 k = true <;> simp [h, List.find?_cons, ih]

theorem removeRest_none (k : K) (c : List (Entry K V)) (h : (removeRest eq k c).2 = none) :
    (removeRest eq k c).1 = c := by
  induction c with
  | nil => simp [removeRest]
  | cons a c ih =>
    simp only [removeRest] at h ⊢
    split
    · simp_all
    · simp_all

theorem removeRest_length (k : K) (c : List (Entry K V)) :
    (removeRest eq k c).1.length + (if (removeRest eq k c).2.isSome then 1 else 0) = c.length := by
  induction c with
  | nil => simp [removeRest]
  | cons a c ih =>
    simp only [removeRest]
    split
    · simp
    · simp; omega

end Chain

section Table
variable {K V : Type}

/-- Well-formedness of a table. -/
structure Inv (t : Table K V) : Prop where
  pos : 0 < t.size
  len : t.buckets.length = t.size
  place : ∀ i c, t.buckets[i]? = some c → ∀ e ∈ c, t.hash e.1 % t.size = i
  nodup : ∀ c ∈ t.buckets, c.Pairwise (fun a b => t.eq a.1 b.1 = false)

/-- The bucket of a key. -/
def bucketOf (t : Table K V) (q : K) : List (Entry K V) := (t.buckets[t.hash q % t.size]?).getD []

/-- The abstract map a table stands for. -/
def abs (t : Table K V) : Map.M K V := fun q => (bucketOf t q).find? (fun e => t.eq e.1 q)

theorem Inv.get {t : Table K V} (h : Inv t) (q : K) :
    t.buckets[t.hash q % t.size]? = some (bucketOf t q) := by
  have : t.hash q % t.size < t.buckets.length := by rw [h.len]; exact Nat.mod_lt _ h.pos
  simp [bucketOf, List.getElem?_eq_getElem this]

theorem Inv.mem {t : Table K V} (h : Inv t) (q : K) : bucketOf t q ∈ t.buckets :=
  List.mem_of_getElem? (h.get q)

theorem Inv.index {t : Table K V} (h : Inv t) (q : K) : index t q = .ok (t.hash q % t.size) := by
  have := h.pos
  simp [HT.index]; omega

theorem Inv.chainAt {t : Table K V} (h : Inv t) (q : K) :
    HT.chainAt t (t.hash q % t.size) = .ok (bucketOf t q) := by
  simp [HT.chainAt, h.get q]

theorem inv_new (size : Nat) (hs : 0 < size) (hash : K → Nat) (eq : K → K → Bool) :
    Inv (HTnew (V := V) size hash eq) where
  pos := hs
  len := by simp [HTnew]
  place := by
    intro i c hc e he
    simp [HTnew, List.getElem?_replicate] at hc
    simp_all
  nodup := by
    intro c hc
    simp [HTnew] at hc
    simp [hc]

theorem abs_new (size : Nat) (hash : K → Nat) (eq : K → K → Bool) :
    abs (HTnew (V := V) size hash eq) = Map.empty := by
  funext q
  simp only [abs, bucketOf, HTnew, List.getElem?_replicate, Map.empty]
  split <;> simp

theorem lookup_eq {t : Table K V} (h : Inv t) (q : K) : HTlookup t q = .ok (Map.get (abs t) q) := by
  simp only [HTlookup, h.index, h.chainAt, Res.bind_ok, lookupChain_eq, Map.get, abs]
  cases List.find? (fun e => t.eq e.1 q) (bucketOf t q) <;> rfl

/-- Replace the chain of one bucket. -/
theorem inv_set {t : Table K V} (h : Inv t) (k : K) (c' : List (Entry K V)) (n : UInt64)
    (hp : ∀ e ∈ c', t.hash e.1 % t.size = t.hash k % t.size)
    (hn : c'.Pairwise (fun a b => t.eq a.1 b.1 = false)) :
    Inv { t with buckets := t.buckets.set (t.hash k % t.size) c', elements := n } where
  pos := h.pos
  len := by simp [h.len]
  place := by
    intro i c hc e he
    simp only [List.getElem?_set] at hc
    split at hc
    · split at hc
      · simp at hc; subst hc; rename_i h1 _; rw [← h1]; exact hp e he
      · simp at hc
    · exact h.place i c hc e he
  nodup := by
    intro c hc
    rcases List.mem_or_eq_of_mem_set hc with h' | h'
    · exact h.nodup c h'
    · rw [h']; exact hn

theorem bucketOf_set {t : Table K V} (h : Inv t) (k : K) (c' : List (Entry K V)) (n : UInt64) (q : K) :
    bucketOf { t with buckets := t.buckets.set (t.hash k % t.size) c', elements := n } q =
      if t.hash k % t.size = t.hash q % t.size then c' else bucketOf t q := by
  simp only [bucketOf, List.getElem?_set]
  have : t.hash k % t.size < t.buckets.length := by rw [h.len]; exact Nat.mod_lt _ h.pos
  split <;> simp [this]

theorem place_bucket {t : Table K V} (h : Inv t) (k : K) :
    ∀ e ∈ bucketOf t k, t.hash e.1 % t.size = t.hash k % t.size := h.place _ _ (h.get k)

theorem sum_set (l : List (List (Entry K V))) (i : Nat) (hi : i < l.length) (c : List (Entry K V)) :
    ((l.set i c).map List.length).sum + l[i].length = (l.map List.length).sum + c.length := by
  induction l generalizing i with
  | nil => simp at hi
  | cons a l ih =>
    cases i with
    | zero => simp; omega
    | succ i =>
      simp only [List.length_cons] at hi
      have := ih i (by omega)
      simp only [List.set_cons_succ, List.map_cons, List.sum_cons, List.getElem_cons_succ]
      omega

theorem insert_spec {t : Table K V} (H : Map.KeyFns t.hash t.eq) (h : Inv t) (k : K) (v : Option V) :
    ∃ t', HTinsert t k v = .ok t' ∧ Inv t' ∧ t'.hash = t.hash ∧ t'.eq = t.eq ∧ t'.size = t.size ∧
      abs t' = Map.insert t.eq (abs t) k v ∧
      t'.elements = (if Map.live (abs t) k then t.elements else t.elements + 1) ∧
      chainTotal t' = chainTotal t + (if Map.live (abs t) k then 0 else 1) := by
  have hnew : (insertChain t.eq k v (bucketOf t k)).2 = !Map.live (abs t) k := insertChain_new k v _
  have e : HTinsert t k v = .ok { t with
      buckets := t.buckets.set (t.hash k % t.size) (insertChain t.eq k v (bucketOf t k)).1
      elements := if (insertChain t.eq k v (bucketOf t k)).2 then t.elements + 1 else t.elements } := by
    simp only [HTinsert, h.index, h.chainAt, Res.bind_ok]
  refine ⟨_, e, ?_, rfl, rfl, rfl, ?_, ?_, ?_⟩
  · refine inv_set h k _ _ ?_ (insertChain_pairwise H k v _ (h.nodup _ (h.mem k)))
    intro e he
    rcases insertChain_key k v _ he with h' | ⟨e', h1, h2⟩
    · rw [h']
    · rw [← h2]; exact place_bucket h k e' h1
  · funext q
    simp only [abs]
    rw [bucketOf_set h]
    by_cases hq : t.hash k % t.size = t.hash q % t.size
    · simp only [hq, if_true]
      have hb : bucketOf t k = bucketOf t q := by simp [bucketOf, hq]
      rw [insertChain_find H]
      simp only [Map.insert, hb, abs]
    · simp only [hq, if_false, Map.insert]
      have : t.eq k q = false := by
        cases hkq : t.eq k q
        · rfl
        · exact absurd (by rw [H.hash_congr _ _ hkq]) hq
      simp [this, abs]
  · simp only [hnew]
    cases Map.live (abs t) k <;> rfl
  · have hlt : t.hash k % t.size < t.buckets.length := by rw [h.len]; exact Nat.mod_lt _ h.pos
    have hg : t.buckets[t.hash k % t.size] = bucketOf t k := by
      have := h.get k
      rw [List.getElem?_eq_getElem hlt] at this
      exact Option.some.inj this
    have := sum_set t.buckets _ hlt (insertChain t.eq k v (bucketOf t k)).1
    rw [hg, insertChain_length, hnew] at this
    simp only [chainTotal]
    cases hl : Map.live (abs t) k <;> simp only [hl, Bool.not_true, Bool.not_false, if_true, if_false,
      Bool.false_eq_true] at this ⊢ <;> omega

theorem remove_spec {t : Table K V} (H : Map.KeyFns t.hash t.eq) (h : Inv t) (k : K) (t' : Table K V)
    (r : Option V) (hr : HTremove t k = .ok (t', r)) :
    Inv t' ∧ t'.hash = t.hash ∧ t'.eq = t.eq ∧ t'.size = t.size ∧
      abs t' = Map.remove t.eq (abs t) k ∧ r = Map.get (abs t) k ∧
      t'.elements = (if Map.live (abs t) k then t.elements - 1 else t.elements) ∧
      chainTotal t' + (if Map.live (abs t) k then 1 else 0) = chainTotal t := by
  have hlt : t.hash k % t.size < t.buckets.length := by rw [h.len]; exact Nat.mod_lt _ h.pos
  have hg : t.buckets[t.hash k % t.size] = bucketOf t k := by
    have := h.get k
    rw [List.getElem?_eq_getElem hlt] at this
    exact Option.some.inj this
  have hpw := h.nodup _ (h.mem k)
  -- the head case is one step of the tail loop
  have hrr : ∀ e rest, bucketOf t k = e :: rest →
      HTremove t k = match (removeRest t.eq k (bucketOf t k)).2 with
        | some v => .ok ({ t with
            buckets := t.buckets.set (t.hash k % t.size) (removeRest t.eq k (bucketOf t k)).1,
            elements := t.elements - 1 }, v)
        | none => .ok (t, none) := by
    intro e rest hb
    simp only [HTremove, h.index, h.chainAt, Res.bind_ok, hb, removeRest]
    split
    · rfl
    · rfl
  cases hb : bucketOf t k with
  | nil => simp [HTremove, h.index, h.chainAt, hb] at hr
  | cons e rest =>
    rw [hrr e rest hb] at hr
    have hval := removeRest_val (eq := t.eq) k (bucketOf t k)
    cases hv : (removeRest t.eq k (bucketOf t k)).2 with
    | none =>
      rw [hv] at hr hval
      simp at hr
      obtain ⟨rfl, rfl⟩ := hr
      have hn : List.find? (fun e => t.eq e.1 k) (bucketOf t k) = none := by
        cases hf : List.find? (fun e => t.eq e.1 k) (bucketOf t k)
        · rfl
        · rw [hf] at hval; simp at hval
      have hnone : abs t k = none := hn
      refine ⟨h, rfl, rfl, rfl, ?_, ?_, ?_, ?_⟩
      · funext q
        simp only [Map.remove]
        split
        · rename_i hkq
          have : bucketOf t q = bucketOf t k := by simp [bucketOf, H.hash_congr _ _ hkq]
          simp only [abs, this]
          rw [List.find?_eq_none] at hn ⊢
          intro x hx hxq
          exact hn x hx (H.trans _ _ _ hxq (H.symm _ _ hkq))
        · rfl
      · simp [Map.get, hnone]
      · simp [Map.live, hnone]
      · simp [Map.live, hnone]
    | some w =>
      rw [hv] at hr hval
      simp at hr
      obtain ⟨rfl, rfl⟩ := hr
      obtain ⟨x, hx, hxw⟩ : ∃ x, List.find? (fun e => t.eq e.1 k) (bucketOf t k) = some x ∧ x.2 = w := by
        cases hf : List.find? (fun e => t.eq e.1 k) (bucketOf t k)
        · rw [hf] at hval; simp at hval
        · rw [hf] at hval; exact ⟨_, rfl, by simpa using hval.symm⟩
      have hsome : abs t k = some x := hx
      refine ⟨?_, rfl, rfl, rfl, ?_, ?_, ?_, ?_⟩
      · exact inv_set h k _ _ (fun e he => place_bucket h k e (removeRest_mem k _ he))
          (removeRest_pairwise k _ hpw)
      · funext q
        simp only [abs]
        rw [bucketOf_set h]
        by_cases hq : t.hash k % t.size = t.hash q % t.size
        · have hbq : bucketOf t k = bucketOf t q := by simp [bucketOf, hq]
          simp only [hq, if_true]
          rw [removeRest_find H k _ hpw]
          simp only [Map.remove, hbq, abs]
        · simp only [hq, if_false, Map.remove]
          have : t.eq k q = false := by
            cases hkq : t.eq k q
            · rfl
            · exact absurd (by rw [H.hash_congr _ _ hkq]) hq
          simp [this, abs]
      · simp [Map.get, hsome, hxw]
      · simp [Map.live, hsome]
      · have := sum_set t.buckets _ hlt (removeRest t.eq k (bucketOf t k)).1
        have h2 := removeRest_length (eq := t.eq) k (bucketOf t k)
        rw [hv] at h2
        rw [hg] at this
        simp only [Map.live, hsome, chainTotal, Option.isSome_some, if_true] at h2 ⊢
        omega

theorem remove_ok_of_live {t : Table K V} (h : Inv t) (k : K) (hl : Map.live (abs t) k = true) :
    ∃ r, HTremove t k = .ok r := by
  simp only [HTremove, h.index, h.chainAt, Res.bind_ok]
  cases hb : bucketOf t k with
  | nil => simp [Map.live, abs, hb] at hl
  | cons e rest =>
    simp only
    split
    · exact ⟨_, rfl⟩
    · split
      · exact ⟨_, rfl⟩
      · exact ⟨_, rfl⟩

/-- Value updates that keep keys. -/
theorem mapKV_inv {t : Table K V} (h : Inv t) (f : K → Option V → Option V) :
    Inv (HTmapWithKey t f) where
  pos := h.pos
  len := by simp [HTmapWithKey, h.len]
  place := by
    intro i c hc e he
    simp only [HTmapWithKey, List.getElem?_map] at hc
    cases hb : t.buckets[i]? with
    | none => simp [hb] at hc
    | some c0 =>
      simp [hb] at hc; subst hc
      simp at he
      obtain ⟨a, b, hab, rfl⟩ := he
      exact h.place i c0 hb (a, b) hab
  nodup := by
    intro c hc
    simp [HTmapWithKey] at hc
    obtain ⟨c0, hc0, rfl⟩ := hc
    rw [List.pairwise_map]
    exact h.nodup c0 hc0

theorem mapKV_abs {t : Table K V} (f : K → Option V → Option V) :
    abs (HTmapWithKey t f) = Map.mapVals (abs t) f := by
  funext q
  have hb : bucketOf (HTmapWithKey t f) q = (bucketOf t q).map (fun e => (e.1, f e.1 e.2)) := by
    simp only [bucketOf, HTmapWithKey, List.getElem?_map]
    cases t.buckets[t.hash q % t.size]? <;> simp
  simp only [abs, hb, Map.mapVals, List.find?_map]
  rfl

theorem map_eq (t : Table K V) (f : Option V → Option V) : HTmap t f = HTmapWithKey t (fun _ v => f v) := rfl

theorem clear_inv {t : Table K V} (h : Inv t) : Inv (HTclear t) where
  pos := h.pos
  len := by simp [HTclear, h.len]
  place := by
    intro i c hc e he
    simp only [HTclear, List.getElem?_map] at hc
    cases hb : t.buckets[i]? <;> simp [hb] at hc
    subst hc; simp at he
  nodup := by
    intro c hc
    simp only [HTclear, List.mem_map] at hc
    obtain ⟨_, _, rfl⟩ := hc
    exact List.Pairwise.nil

theorem clear_abs (t : Table K V) : abs (HTclear t) = Map.empty := by
  funext q
  simp only [abs, bucketOf, HTclear, List.getElem?_map, Map.empty]
  cases t.buckets[t.hash q % t.size]? <;> simp

theorem clear_total (t : Table K V) : chainTotal (HTclear t) = 0 := by
  simp only [chainTotal, HTclear, List.map_map]
  induction t.buckets with
  | nil => rfl
  | cons a l ih => simpa using ih

theorem mapKV_total (t : Table K V) (f : K → Option V → Option V) :
    chainTotal (HTmapWithKey t f) = chainTotal t := by
  simp only [chainTotal, HTmapWithKey, List.map_map]
  congr 1
  apply List.map_congr_left
  intro a _
  simp

/-- The entries in iteration order. -/
def flat (t : Table K V) : List (Entry K V) := t.buckets.flatten

theorem flat_length (t : Table K V) : (flat t).length = chainTotal t := by
  simp [flat, chainTotal, List.length_flatten]

theorem Inv.flat_pairwise {t : Table K V} (H : Map.KeyFns t.hash t.eq) (h : Inv t) :
    (flat t).Pairwise (fun a b => t.eq a.1 b.1 = false) := by
  rw [flat, List.pairwise_flatten]
  refine ⟨fun c hc => h.nodup c hc, ?_⟩
  rw [List.pairwise_iff_getElem]
  intro i j hi hj hij x hx y hy
  have h1 := h.place i _ (List.getElem?_eq_getElem hi) x hx
  have h2 := h.place j _ (List.getElem?_eq_getElem hj) y hy
  cases hxy : t.eq x.1 y.1
  · rfl
  · rw [H.hash_congr _ _ hxy] at h1; omega

theorem Inv.abs_mem {t : Table K V} (H : Map.KeyFns t.hash t.eq) (h : Inv t) (e : Entry K V)
    (he : e ∈ flat t) : abs t e.1 = some e := by
  obtain ⟨c, hc, hec⟩ := List.mem_flatten.mp he
  obtain ⟨i, hi, hic⟩ := List.getElem_of_mem hc
  have hp := h.place i c (by rw [List.getElem?_eq_getElem hi, hic]) e hec
  have hb : bucketOf t e.1 = c := by
    simp only [bucketOf, hp, List.getElem?_eq_getElem hi, hic]; rfl
  simp only [abs, hb]
  have hpw := h.nodup c hc
  clear hb hp hic hi hc he
  induction c with
  | nil => simp at hec
  | cons a c ih =>
    rw [List.pairwise_cons] at hpw
    simp only [List.mem_cons] at hec
    rcases hec with rfl | hec
    · simp [H.refl]
    · simp [hpw.1 e hec, ih hec hpw.2]

theorem Inv.mem_of_abs {t : Table K V} (h : Inv t) (q : K) (e : Entry K V) (he : abs t q = some e) :
    e ∈ flat t ∧ t.eq e.1 q = true := by
  simp only [abs] at he
  refine ⟨?_, by have := List.find?_some he; simpa using this⟩
  exact List.mem_flatten.mpr ⟨_, h.mem q, List.mem_of_find?_eq_some he⟩

theorem Inv.enumerates {t : Table K V} (H : Map.KeyFns t.hash t.eq) (h : Inv t) :
    Map.Enumerates t.eq (abs t) (flat t) :=
  ⟨h.flat_pairwise H, h.abs_mem H, fun q e he => (h.mem_of_abs q e he).1⟩

theorem enumerates_count {hash : K → Nat} {eq : K → K → Bool} (_H : Map.KeyFns hash eq) {m : Map.M K V}
    (hm : ∀ q e, m q = some e → eq e.1 q = true) (hc : ∀ a b, eq a b = true → m a = m b)
    {L : List (Entry K V)}
    (h : Map.Enumerates eq m L) : Map.LiveCount eq m L.length := by
  refine ⟨L.map Prod.fst, by simp, by rw [List.pairwise_map]; exact h.1, ?_⟩
  intro q
  constructor
  · intro hl
    obtain ⟨e, he⟩ := Option.isSome_iff_exists.mp hl
    exact ⟨e.1, List.mem_map.mpr ⟨e, h.2.2 q e he, rfl⟩, hm q e he⟩
  · rintro ⟨k, hk, hkq⟩
    obtain ⟨e, he, rfl⟩ := List.mem_map.mp hk
    simp [Map.live, ← hc _ _ hkq, h.2.1 e he]

theorem abs_congr {t : Table K V} (H : Map.KeyFns t.hash t.eq) (a b : K)
    (hab : t.eq a b = true) : abs t a = abs t b := by
  simp only [abs, bucketOf, H.hash_congr _ _ hab]
  congr 1
  funext e
  exact eq_right H hab e.1

theorem Inv.liveCount {t : Table K V} (H : Map.KeyFns t.hash t.eq) (h : Inv t) :
    Map.LiveCount t.eq (abs t) (chainTotal t) := by
  rw [← flat_length]
  exact enumerates_count H (fun q e he => (h.mem_of_abs q e he).2)
    (fun a b hab => abs_congr H a b hab) (h.enumerates H)

end Table

end Verif.HT
