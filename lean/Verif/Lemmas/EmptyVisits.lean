import Verif.Spec.EmptyVisits

/-!
# Lemmas about empty visits
-/

namespace Verif.EmptyVisits
open Verif.Spec.EmptyVisits

/-- The type has a visit. -/
def Has (V : Visits) (t : Ty) : Prop := ∃ n, V t = some (n + 1)

theorem node_has_spec {V : Visits} (l : List Ty) (h : ∀ t ∈ l, V t ≠ none) :
    (node_has_visit V l = .ok true ∧ ∃ t ∈ l, Has V t) ∨ (node_has_visit V l = .ok false ∧ ∀ t ∈ l, ¬ Has V t) := by
  induction l with
  | nil => exact Or.inr ⟨rfl, by simp⟩
  | cons t l ih =>
    cases hv : V t with
    | none => exact absurd hv (h t (by simp))
    | some n =>
      cases n with
      | succ n => exact Or.inl ⟨by simp only [node_has_visit, hv], t, by simp, n, hv⟩
      | zero =>
        rcases ih (fun t ht => h t (List.mem_cons_of_mem _ ht)) with ⟨h1, x, h2, h3⟩ | ⟨h1, h2⟩
        · exact Or.inl ⟨by simp only [node_has_visit, hv, h1], x, List.mem_cons_of_mem _ h2, h3⟩
        · refine Or.inr ⟨by simp only [node_has_visit, hv, h1], fun x hx => ?_⟩
          rcases List.mem_cons.1 hx with rfl | hx
          · rintro ⟨n, hn⟩; rw [hv] at hn; cases hn
          · exact h2 x hx

theorem nodeset_has_spec {V : Visits} (l : List Ty) (h : ∀ t ∈ l, V t ≠ none) :
    (nodeset_has_visit V l = .ok true ∧ ∃ t ∈ l, Has V t) ∨ (nodeset_has_visit V l = .ok false ∧ ∀ t ∈ l, ¬ Has V t) := by
  induction l with
  | nil => exact Or.inr ⟨rfl, by simp⟩
  | cons t l ih =>
    cases hv : V t with
    | none => exact absurd hv (h t (by simp))
    | some n =>
      cases n with
      | succ n => exact Or.inl ⟨by simp only [nodeset_has_visit, hv], t, by simp, n, hv⟩
      | zero =>
        rcases ih (fun t ht => h t (List.mem_cons_of_mem _ ht)) with ⟨h1, x, h2, h3⟩ | ⟨h1, h2⟩
        · exact Or.inl ⟨by simp only [nodeset_has_visit, hv, h1], x, List.mem_cons_of_mem _ h2, h3⟩
        · refine Or.inr ⟨by simp only [nodeset_has_visit, hv, h1], fun x hx => ?_⟩
          rcases List.mem_cons.1 hx with rfl | hx
          · rintro ⟨n, hn⟩; rw [hv] at hn; cases hn
          · exact h2 x hx

/-- All node types and nodesets. -/
def allTypes (s : Types) : List Ty :=
  (List.range s.nodes.length).map .node ++ (List.range s.sets.length).map .set

/-- Types that do not have a visit yet. -/
def left (s : Types) (V : Visits) : Nat := ((allTypes s).filter fun t => V t == some 0).length

/-- The invariant: `V` came from `V0` by adding empty visits to types that reach a visited one. -/
structure EInv (s : Types) (V0 V : Visits) : Prop where
  some : ∀ t, V t = none ↔ V0 t = none
  keep : ∀ t n, V0 t = .some (n + 1) → V t = .some (n + 1)
  new : ∀ t n, V t = .some (n + 1) → V0 t = .some (n + 1) ∨ V0 t = .some 0 ∧ n = 0 ∧ ∃ t', Reaches s t t' ∧ Has V0 t'

theorem EInv.has {s : Types} {V0 V : Visits} (v : EInv s V0 V) {t : Ty} (h : Has V t) : ∃ t', Reaches s t t' ∧ Has V0 t' := by
  obtain ⟨n, hn⟩ := h
  rcases v.new t n hn with h | ⟨_, _, h⟩
  · exact ⟨t, .refl, n, h⟩
  · exact h

theorem EInv.add {s : Types} {V0 V : Visits} (v : EInv s V0 V) {t u : Ty} (h0 : V t = .some 0) (hb : Below s t u)
    (hu : Has V u) : EInv s V0 (add_empty_visit V t) := by
  have hV0 : V0 t = .some 0 := by
    cases h : V0 t with
    | none => rw [(v.some t).2 h] at h0; cases h0
    | some n =>
      cases n with
      | zero => rfl
      | succ n => rw [v.keep t n h] at h0; cases h0
  refine ⟨fun x => ?_, fun x n hx => ?_, fun x n hx => ?_⟩
  · unfold add_empty_visit
    split
    · next e => subst e; simp [hV0]
    · exact v.some x
  · unfold add_empty_visit
    rw [if_neg]
    · exact v.keep x n hx
    · rintro rfl; rw [hV0] at hx; cases hx
  · unfold add_empty_visit at hx
    split at hx
    · next e =>
      subst e
      cases hx
      obtain ⟨t', h1, h2⟩ := v.has hu
      exact Or.inr ⟨hV0, rfl, t', .step hb h1, h2⟩
    · exact v.new x n hx

theorem filter_mono {α : Type} (l : List α) (p q : α → Bool) (h : ∀ x ∈ l, q x = true → p x = true) :
    (l.filter q).length ≤ (l.filter p).length := by
  induction l with
  | nil => simp
  | cons a l ih =>
    have := ih (fun x hx => h x (List.mem_cons_of_mem _ hx))
    have ha := h a (by simp)
    cases hq : q a with
    | true => simp [hq, ha hq]; exact this
    | false =>
      cases hp : p a with
      | true => simp [hq, hp]; omega
      | false => simp [hq, hp]; exact this

theorem filter_strict {α : Type} (l : List α) (p q : α → Bool) (h : ∀ x ∈ l, q x = true → p x = true) {a : α} (ha : a ∈ l)
    (hp : p a = true) (hq : q a = false) : (l.filter q).length < (l.filter p).length := by
  induction l with
  | nil => cases ha
  | cons b l ih =>
    have hm := filter_mono l p q (fun x hx => h x (List.mem_cons_of_mem _ hx))
    rcases List.mem_cons.1 ha with rfl | ha
    · simp [hp, hq]; omega
    · have := ih (fun x hx => h x (List.mem_cons_of_mem _ hx)) ha
      have hb := h b (by simp)
      cases hqb : q b with
      | true => simp [hqb, hb hqb]; exact this
      | false =>
        cases hpb : p b with
        | true => simp [hqb, hpb]; omega
        | false => simp [hqb, hpb]; exact this

theorem left_add {s : Types} {V : Visits} {t : Ty} (ht : t ∈ allTypes s) (h0 : V t = some 0) :
    left s (add_empty_visit V t) < left s V := by
  refine filter_strict _ _ _ (fun x _ h => ?_) ht (by simp [h0]) (by simp [add_empty_visit])
  unfold add_empty_visit at h
  split at h
  · simp at h
  · exact h

/-- Nothing more to do at `t`: if something below has a visit, so has `t`. -/
def Settled (s : Types) (V : Visits) (t : Ty) : Prop := V t ≠ none → ∀ u, Below s t u → Has V u → Has V t

theorem mem_node {s : Types} {i : Nat} (h : i < s.nodes.length) : Ty.node i ∈ allTypes s := by
  simp [allTypes, h]

theorem mem_set {s : Types} {i : Nat} (h : i < s.sets.length) : Ty.set i ∈ allTypes s := by
  simp [allTypes, h]

/-- The hypothesis: nothing below a type lacks an entry. -/
def Known (s : Types) (V : Visits) : Prop := ∀ a b, Below s a b → V a ≠ none → V b ≠ none

theorem EInv.known {s : Types} {V0 V : Visits} (v : EInv s V0 V) (h : Known s V0) : Known s V := by
  intro a b hb ha
  rw [ne_eq, v.some] at ha ⊢
  exact h a b hb ha

theorem passNodes_spec {s : Types} {V0 : Visits} (hk : Known s V0) (rest : List (List Ty)) : ∀ (i : Nat) (V : Visits) (changes : Nat),
    EInv s V0 V → (∀ (k : Nat), s.nodes[i + k]? = rest[k]?) →
    ∃ V' c, passNodes i rest V changes = .ok (V', c) ∧ EInv s V0 V' ∧ left s V' + c ≤ left s V + changes ∧ changes ≤ c ∧
      (c = changes → V' = V ∧ ∀ j, i ≤ j → Settled s V (.node j)) := by
  induction rest with
  | nil =>
    intro i V changes v hi
    refine ⟨V, changes, rfl, v, Nat.le_refl _, Nat.le_refl _, fun _ => ⟨rfl, fun j hj _ u hb _ => ?_⟩⟩
    have : s.nodes[j]? = none := by
      have := hi (j - i)
      rw [show i + (j - i) = j by omega] at this
      simpa using this
    cases hb with
    | child h _ => rw [this] at h; cases h
  | cons kids rest ih =>
    intro i V changes v hi
    have hkids : s.nodes[i]? = some kids := by simpa using hi 0
    have hrest : ∀ (k : Nat), s.nodes[i + 1 + k]? = rest[k]? := fun k => by
      have := hi (k + 1)
      rw [show i + 1 + k = i + (k + 1) by omega, this]
      simp
    have hlt : i < s.nodes.length := (List.getElem?_eq_some_iff.1 hkids).1
    have hbelow : ∀ u, Below s (.node i) u → u ∈ kids := by
      intro u hu
      cases hu with
      | child h1 h2 => rw [hkids] at h1; cases h1; exact h2
    have skip : (V (.node i) = none ∨ (∃ n, V (.node i) = some (n + 1)) ∨ (∀ t ∈ kids, ¬ Has V t)) →
        passNodes i (kids :: rest) V changes = passNodes (i + 1) rest V changes →
        ∃ V' c, passNodes i (kids :: rest) V changes = .ok (V', c) ∧ EInv s V0 V' ∧ left s V' + c ≤ left s V + changes ∧
          changes ≤ c ∧ (c = changes → V' = V ∧ ∀ j, i ≤ j → Settled s V (.node j)) := by
      intro hc he
      obtain ⟨V', c, e, v', l1, l2, l3⟩ := ih (i + 1) V changes v hrest
      refine ⟨V', c, by rw [he, e], v', l1, l2, fun hcc => ⟨(l3 hcc).1, fun j hj => ?_⟩⟩
      by_cases hji : j = i
      · subst hji
        intro hne u hu hh
        rcases hc with hc | hc | hc
        · exact absurd hc hne
        · exact hc
        · exact absurd hh (hc u (hbelow u hu))
      · exact (l3 hcc).2 j (by omega)
    cases hv : V (.node i) with
    | none => exact skip (Or.inl hv) (by rw [passNodes]; simp only [hv])
    | some n =>
      cases n with
      | succ n => exact skip (Or.inr (Or.inl ⟨n, hv⟩)) (by rw [passNodes]; simp only [hv])
      | zero =>
        rcases node_has_spec kids (fun t ht => v.known hk _ _ (.child hkids ht) (by simp [hv])) with ⟨h1, u, h2, h3⟩ | ⟨h1, h2⟩
        · obtain ⟨V', c, e, v', l1, l2, l3⟩ := ih (i + 1) (add_empty_visit V (.node i)) (changes + 1)
            (v.add hv (.child hkids h2) h3) hrest
          have := left_add (mem_node hlt) hv
          refine ⟨V', c, ?_, v', by omega, by omega, fun hc => by omega⟩
          rw [passNodes]
          simp only [hv, h1, Res.bind_ok, e]
        · refine skip (Or.inr (Or.inr h2)) ?_
          rw [passNodes]
          simp only [hv, h1, Res.bind_ok]

theorem passSets_spec {s : Types} {V0 : Visits} (hk : Known s V0) (rest : List (List Ty)) : ∀ (i : Nat) (V : Visits) (changes : Nat),
    EInv s V0 V → (∀ (k : Nat), s.sets[i + k]? = rest[k]?) →
    ∃ V' c, passSets i rest V changes = .ok (V', c) ∧ EInv s V0 V' ∧ left s V' + c ≤ left s V + changes ∧ changes ≤ c ∧
      (c = changes → V' = V ∧ ∀ j, i ≤ j → Settled s V (.set j)) := by
  induction rest with
  | nil =>
    intro i V changes v hi
    refine ⟨V, changes, rfl, v, Nat.le_refl _, Nat.le_refl _, fun _ => ⟨rfl, fun j hj _ u hb _ => ?_⟩⟩
    have : s.sets[j]? = none := by
      have := hi (j - i)
      rw [show i + (j - i) = j by omega] at this
      simpa using this
    cases hb with
    | member h _ => rw [this] at h; cases h
  | cons kids rest ih =>
    intro i V changes v hi
    have hkids : s.sets[i]? = some kids := by simpa using hi 0
    have hrest : ∀ (k : Nat), s.sets[i + 1 + k]? = rest[k]? := fun k => by
      have := hi (k + 1)
      rw [show i + 1 + k = i + (k + 1) by omega, this]
      simp
    have hlt : i < s.sets.length := (List.getElem?_eq_some_iff.1 hkids).1
    have hbelow : ∀ u, Below s (.set i) u → u ∈ kids := by
      intro u hu
      cases hu with
      | member h1 h2 => rw [hkids] at h1; cases h1; exact h2
    have skip : (V (.set i) = none ∨ (∃ n, V (.set i) = some (n + 1)) ∨ (∀ t ∈ kids, ¬ Has V t)) →
        passSets i (kids :: rest) V changes = passSets (i + 1) rest V changes →
        ∃ V' c, passSets i (kids :: rest) V changes = .ok (V', c) ∧ EInv s V0 V' ∧ left s V' + c ≤ left s V + changes ∧
          changes ≤ c ∧ (c = changes → V' = V ∧ ∀ j, i ≤ j → Settled s V (.set j)) := by
      intro hc he
      obtain ⟨V', c, e, v', l1, l2, l3⟩ := ih (i + 1) V changes v hrest
      refine ⟨V', c, by rw [he, e], v', l1, l2, fun hcc => ⟨(l3 hcc).1, fun j hj => ?_⟩⟩
      by_cases hji : j = i
      · subst hji
        intro hne u hu hh
        rcases hc with hc | hc | hc
        · exact absurd hc hne
        · exact hc
        · exact absurd hh (hc u (hbelow u hu))
      · exact (l3 hcc).2 j (by omega)
    cases hv : V (.set i) with
    | none => exact skip (Or.inl hv) (by rw [passSets]; simp only [hv])
    | some n =>
      cases n with
      | succ n => exact skip (Or.inr (Or.inl ⟨n, hv⟩)) (by rw [passSets]; simp only [hv])
      | zero =>
        rcases nodeset_has_spec kids (fun t ht => v.known hk _ _ (.member hkids ht) (by simp [hv])) with ⟨h1, u, h2, h3⟩ | ⟨h1, h2⟩
        · obtain ⟨V', c, e, v', l1, l2, l3⟩ := ih (i + 1) (add_empty_visit V (.set i)) (changes + 1)
            (v.add hv (.member hkids h2) h3) hrest
          have := left_add (mem_set hlt) hv
          refine ⟨V', c, ?_, v', by omega, by omega, fun hc => by omega⟩
          rw [passSets]
          simp only [hv, h1, Res.bind_ok, e]
        · refine skip (Or.inr (Or.inr h2)) ?_
          rw [passSets]
          simp only [hv, h1, Res.bind_ok]

theorem empty_spec {s : Types} {V0 : Visits} (hk : Known s V0) : ∀ (m : Nat) (V : Visits), EInv s V0 V → left s V ≤ m →
    ∃ V' N, (∀ fuel, N ≤ fuel → generate_empty_visits s fuel V = .ok V') ∧ EInv s V0 V' ∧ ∀ t, Settled s V' t := by
  intro m
  induction m with
  | zero =>
    intro V v hm
    obtain ⟨V1, c1, e1, v1, l1, k1, s1⟩ := passNodes_spec hk s.nodes 0 V 0 v (by simp)
    obtain ⟨V2, c2, e2, v2, l2, k2, s2⟩ := passSets_spec hk s.sets 0 V1 c1 v1 (by simp)
    have hc1 : c1 = 0 := by omega
    have hc2 : c2 = c1 := by omega
    obtain ⟨rfl, s1⟩ := s1 hc1
    obtain ⟨rfl, s2⟩ := s2 hc2
    refine ⟨V2, 1, fun fuel hf => ?_, v2, fun t => ?_⟩
    · obtain ⟨f, rfl⟩ : ∃ f, fuel = f + 1 := ⟨fuel - 1, by omega⟩
      subst hc2 hc1
      simp only [generate_empty_visits, e1, e2, Res.bind_ok]
    · cases t with
      | node j => exact s1 j (Nat.zero_le _)
      | set j => exact s2 j (Nat.zero_le _)
  | succ m ih =>
    intro V v hm
    obtain ⟨V1, c1, e1, v1, l1, k1, s1⟩ := passNodes_spec hk s.nodes 0 V 0 v (by simp)
    obtain ⟨V2, c2, e2, v2, l2, k2, s2⟩ := passSets_spec hk s.sets 0 V1 c1 v1 (by simp)
    cases c2 with
    | zero =>
      have hc1 : c1 = 0 := by omega
      obtain ⟨rfl, s1⟩ := s1 hc1
      obtain ⟨rfl, s2⟩ := s2 hc1.symm
      refine ⟨V2, 1, fun fuel hf => ?_, v2, fun t => ?_⟩
      · obtain ⟨f, rfl⟩ : ∃ f, fuel = f + 1 := ⟨fuel - 1, by omega⟩
        simp only [generate_empty_visits, e1, e2, Res.bind_ok]
      · cases t with
        | node j => exact s1 j (Nat.zero_le _)
        | set j => exact s2 j (Nat.zero_le _)
    | succ c2 =>
      obtain ⟨V3, N, e3, v3, s3⟩ := ih V2 v2 (by omega)
      refine ⟨V3, N + 1, fun fuel hf => ?_, v3, s3⟩
      obtain ⟨f, rfl⟩ : ∃ f, fuel = f + 1 := ⟨fuel - 1, by omega⟩
      simp only [generate_empty_visits, e1, e2, Res.bind_ok]
      exact e3 f (by omega)

end Verif.EmptyVisits
