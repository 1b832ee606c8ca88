import Verif.Model.Unpack
import Verif.Spec.Unpack
import Verif.Lemmas.SemanticMain
import Verif.Lemmas.Lifetimes

/-!
# Lemmas about the phase `unpackLifetimes`
-/

namespace Verif.Unpack
open Verif.Str Verif.Ids
open Verif.Semantic (idOf Right Facts World Like Kept code)
open Verif.Propagate (Target Entry)
open Verif.Spec.Str (lowerB upperB SameName)
open Verif.Spec.Ids Verif.Spec.Unpack
open Verif.Spec.Semantic (Pairs Member NodeAttr SetAttr)
open Verif.Spec.Life (Tree Unfolds Reaches used occ size below belowLast)

theorem ident_eq (n : Parse.Name) : idOf n = ident n := rfl

/-! ### The symbol table -/

theorem named_get {kind : Kind} {l : List (Id × Option Id)} {i : Nat} {x : Id × Decl} :
    x ∈ namedDecls kind i l ↔ ∃ (k : Nat) (n : Id) (u : Option Id), l[k]? = some (n, u) ∧ (x.1 = n ∨ u = some x.1) ∧ x.2 = ⟨kind, i + k⟩ := by
  induction l generalizing i with
  | nil => simp [namedDecls]
  | cons a l ih =>
    obtain ⟨n, u⟩ := a
    rw [namedDecls, List.mem_append, ih]
    constructor
    · rintro (h | ⟨k, m, v, h1, h2, h3⟩)
      · obtain ⟨y, hy, rfl⟩ := List.mem_map.1 h
        refine ⟨0, n, u, rfl, ?_, rfl⟩
        rcases List.mem_cons.1 hy with rfl | hy
        · exact Or.inl rfl
        · exact Or.inr (by simpa using hy)
      · exact ⟨k + 1, m, v, h1, h2, by rw [h3, Nat.add_assoc, Nat.add_comm 1]⟩
    · rintro ⟨k, m, v, h1, h2, h3⟩
      cases k with
      | zero =>
        cases h1
        left
        refine List.mem_map.2 ⟨x.1, ?_, ?_⟩
        · rcases h2 with h2 | h2
          · rw [h2]; exact List.mem_cons_self
          · rw [h2]; simp
        · rw [show (⟨kind, i⟩ : Decl) = x.2 from h3.symm]
      | succ k => exact Or.inr ⟨k, m, v, h1, h2, by rw [h3, Nat.add_assoc, Nat.add_comm 1]⟩

theorem find_named {A : Parse.Ast} {tab : List (Ste Decl)} (h : Right A tab) {B : Type} {name : B → Parse.Name}
    {uid : B → Option Parse.Name} {l : List B} {kind : Kind}
    (hd : ∀ x : Id × Decl, (x ∈ declared (Semantic.progOf A).ids ∧ x.2.kind = kind) ↔
      x ∈ namedDecls kind 0 (l.map fun b => (idOf (name b), (uid b).map idOf))) (n : Parse.Name) (k : Nat) :
    stFind (idOf n).lwr tab = some ⟨kind, k⟩ ↔ ∃ p, l[k]? = some p ∧ Refers n (name p) (uid p) := by
  rw [show (idOf n).lwr = n.orig.map lowerB from rfl, Semantic.table_key h.bst]
  constructor
  · rintro ⟨x, hx, hs, hk⟩
    obtain ⟨j, m, u, h1, h2, h3⟩ := named_get.1 ((hd x).1 ⟨hx, by rw [hk]⟩)
    rw [hk, Nat.zero_add] at h3
    cases h3
    simp only [List.getElem?_map, Option.map_eq_some_iff, Prod.mk.injEq] at h1
    obtain ⟨b, h4, h5, h6⟩ := h1
    refine ⟨b, h4, ?_⟩
    rcases h2 with h2 | h2
    · exact Or.inl (by rw [h2, ← h5] at hs; exact hs)
    · rw [h2] at h6
      obtain ⟨v, hv, h7⟩ := Option.map_eq_some_iff.1 h6
      exact Or.inr ⟨v, hv, by rw [← h7] at hs; exact hs⟩
  · rintro ⟨p, hp, hr⟩
    have mk : ∀ i : Id, (i = idOf (name p) ∨ (uid p).map idOf = some i) →
        (i, (⟨kind, k⟩ : Decl)) ∈ declared (Semantic.progOf A).ids := fun i hi =>
      ((hd (i, ⟨kind, k⟩)).2 (named_get.2 ⟨k, _, _, by simp [hp], hi, by simp⟩)).1
    rcases hr with hr | ⟨u, hu, hr⟩
    · exact ⟨_, mk (idOf (name p)) (Or.inl rfl), hr, rfl⟩
    · exact ⟨_, mk (idOf u) (Or.inr (by rw [hu]; rfl)), hr, rfl⟩

theorem find_phase {A : Parse.Ast} {tab : List (Ste Decl)} (h : Right A tab) (n : Parse.Name) (k : Nat) :
    stFind (idOf n).lwr tab = some ⟨.phase, k⟩ ↔ ∃ p, A.phases[k]? = some p ∧ Refers n p.name p.uid := by
  refine find_named h (name := fun p : Parse.Phase => p.name) (uid := fun p => p.uid) (fun x => ?_) n k
  rw [show (A.phases.map fun b => (idOf b.name, b.uid.map idOf)) = (Semantic.progOf A).ids.phases by
    simp [Semantic.progOf, CheckExist.Prog.ids]]
  simp only [declared, List.mem_append]
  constructor
  · rintro ⟨hx | hx | hx | hx | hx | hx, hd⟩
    · exact hx
    · rw [Semantic.named_kind hx] at hd; cases hd
    · rw [Semantic.named_kind hx] at hd; cases hd
    · rw [(Semantic.plain_get hx).1] at hd; cases hd
    · rw [(Semantic.plain_get hx).1] at hd; cases hd
    · rw [(Semantic.plain_get hx).1] at hd; cases hd
  · exact fun hx => ⟨Or.inl hx, Semantic.named_kind hx⟩

theorem find_traversal {A : Parse.Ast} {tab : List (Ste Decl)} (h : Right A tab) (n : Parse.Name) (k : Nat) :
    stFind (idOf n).lwr tab = some ⟨.traversal, k⟩ ↔ ∃ p, A.traversals[k]? = some p ∧ Refers n p.name (some p.uid) := by
  refine find_named h (name := fun p : Parse.Traversal => p.name) (uid := fun p => some p.uid) (fun x => ?_) n k
  rw [show (A.traversals.map fun b => (idOf b.name, (some b.uid).map idOf)) = (Semantic.progOf A).ids.traversals by
    simp [Semantic.progOf, CheckExist.Prog.ids]]
  simp only [declared, List.mem_append]
  constructor
  · rintro ⟨hx | hx | hx | hx | hx | hx, hd⟩
    · rw [Semantic.named_kind hx] at hd; cases hd
    · exact hx
    · rw [Semantic.named_kind hx] at hd; cases hd
    · rw [(Semantic.plain_get hx).1] at hd; cases hd
    · rw [(Semantic.plain_get hx).1] at hd; cases hd
    · rw [(Semantic.plain_get hx).1] at hd; cases hd
  · exact fun hx => ⟨Or.inr (Or.inl hx), Semantic.named_kind hx⟩

theorem find_pass {A : Parse.Ast} {tab : List (Ste Decl)} (h : Right A tab) (n : Parse.Name) (k : Nat) :
    stFind (idOf n).lwr tab = some ⟨.pass, k⟩ ↔ ∃ p, A.passes[k]? = some p ∧ Refers n p.name p.uid := by
  refine find_named h (name := fun p : Parse.Pass => p.name) (uid := fun p => p.uid) (fun x => ?_) n k
  rw [show (A.passes.map fun b => (idOf b.name, b.uid.map idOf)) =
      (Semantic.progOf A).ids.passes.map fun p => (p.1, p.2.1) by
    simp [Semantic.progOf, CheckExist.Prog.ids]]
  simp only [declared, List.mem_append]
  constructor
  · rintro ⟨hx | hx | hx | hx | hx | hx, hd⟩
    · rw [Semantic.named_kind hx] at hd; cases hd
    · rw [Semantic.named_kind hx] at hd; cases hd
    · exact hx
    · rw [(Semantic.plain_get hx).1] at hd; cases hd
    · rw [(Semantic.plain_get hx).1] at hd; cases hd
    · rw [(Semantic.plain_get hx).1] at hd; cases hd
  · exact fun hx => ⟨Or.inr (Or.inr (Or.inl hx)), Semantic.named_kind hx⟩

/-! ### The actions -/

theorem action_phase {A : Parse.Ast} {tab : List (Ste Decl)} (h : Right A tab) {n : Parse.Name} {q : Nat} :
    actionOf A tab n = .phase q ↔ ∃ p, A.phases[q]? = some p ∧ Refers n p.name p.uid := by
  rw [← find_phase h, actionOf]
  constructor
  · intro e
    split at e
    · cases e
    · cases e; assumption
    · split at e <;> cases e
    · split at e <;> cases e
    · cases e
  · intro e
    rw [e]

theorem phases_get {A : Parse.Ast} {tab : List (Ste Decl)} {q : Nat} {p : Parse.Phase} (h : A.phases[q]? = some p) :
    (phasesOf A tab)[q]? = some ⟨idOf p.name, p.uid.map idOf, p.actions.map (actionOf A tab)⟩ := by
  simp [phasesOf, h]

theorem acts_unfolds {A : Parse.Ast} {tab : List (Ste Decl)} (h : Right A tab) {ns : List Parse.Name} {T : Tree} (ha : Acts A ns T) :
    Unfolds (phasesOf A tab) (ns.map (actionOf A tab)) T := by
  induction ha with
  | nil => exact .nil
  | @traversal n rest t T h1 h2 _ ih =>
    obtain ⟨k, hk⟩ := List.getElem?_of_mem h1
    have : actionOf A tab n = .leaf (idOf t.name) (some (idOf t.uid)) := by
      rw [actionOf, (find_traversal h n k).2 ⟨t, hk, h2⟩]
      simp only [hk]
    rw [List.map_cons, this]
    exact .leaf ih
  | @pass n rest t T h1 h2 _ ih =>
    obtain ⟨k, hk⟩ := List.getElem?_of_mem h1
    have : actionOf A tab n = .leaf (idOf t.name) (t.uid.map idOf) := by
      rw [actionOf, (find_pass h n k).2 ⟨t, hk, h2⟩]
      simp only [hk]
    rw [List.map_cons, this]
    exact .leaf ih
  | phase h1 h2 _ _ ih1 ih2 =>
    rw [List.map_cons, (action_phase h).2 ⟨_, h1, h2⟩]
    exact .phase (phases_get h1) ih1 ih2

theorem reaches_leads {A : Parse.Ast} {tab : List (Ste Decl)} (h : Right A tab) {p q : Nat} (hr : Reaches (phasesOf A tab) p q) :
    Leads A p q := by
  induction hr with
  | refl => exact .refl
  | step h1 h2 _ ih =>
    simp only [phasesOf, List.getElem?_map, Option.map_eq_some_iff] at h1
    obtain ⟨x, h3, rfl⟩ := h1
    obtain ⟨n, hn, h4⟩ := List.mem_map.1 h2
    obtain ⟨y, h5, h6⟩ := (action_phase h).1 h4
    exact .step h3 hn h5 h6 ih

/-! ### Ranges -/

/-- What is known of the numbers of the actions. -/
structure Good (E : Env) (T : Tree) : Prop where
  phase : ∃ x, E.ph[E.start]? = some x ∧ Unfolds E.ph x.actions T
  ids : ∀ (i : Nat) a, (Life.addrs E.start 0 T)[i]? = some a → E.ids a = i + 2

theorem range_ok {E : Env} {T : Tree} (hE : Good E T) {r : Parse.Range} {x : Life.Range} {e : Nat} (h : MITLrange E r = .ok (x, e)) :
    (e = 0 ↔ ∃ i y, Spec.Life.Denotes T (r.target.map ident) i y) ∧
    (e = 0 → Flat T → ∀ n, (From T r n ↔ (x.inclusive = true → x.nums.id ≤ n) ∧ (x.inclusive = false → x.nums.next ≤ n)) ∧
      (To T r n ↔ (x.inclusive = true → n < x.nums.next) ∧ (x.inclusive = false → n < x.nums.id))) := by
  obtain ⟨x0, hx0, hU⟩ := hE.phase
  rw [MITLrange] at h
  obtain ⟨y, hy, h⟩ := Res.bind_eq_ok.1 h
  rw [show r.target.map idOf = r.target.map ident from rfl] at hy
  cases ht : r.target.map ident with
  | nil =>
    rw [ht] at hy
    cases hy
    cases h
    refine ⟨⟨(fun h => by cases h), ?_⟩, (fun h => by cases h)⟩
    rintro ⟨i, y, h⟩
    cases h
  | cons t ts =>
    rw [ht] at hy
    rcases Life.range_spec hx0 hU hE.ids hy with ⟨i, z, nums, d, rfl, h1, h2, h3⟩ | ⟨rfl, hn⟩
    · cases h
      refine ⟨⟨fun _ => ⟨i, z, d⟩, fun _ => rfl⟩, fun _ hF n => ?_⟩
      have hnext : nums.next = i + 3 + below z := by
        cases z with
        | leaf a b => simpa [below] using h2 a b rfl
        | phase q a b body =>
          have := h3 q a b body rfl
          rw [hF q a b body (List.mem_of_getElem? (Life.denotes_get d))] at this
          simpa [below] using this
      have uniq : ∀ P : Nat → Spec.Life.Item → Prop, (∃ j y, Spec.Life.Denotes T (r.target.map ident) j y ∧ P j y) ↔ P i z := by
        intro P
        rw [ht]
        constructor
        · rintro ⟨j, y, d', hp⟩
          obtain ⟨rfl, rfl⟩ := Life.denotes_unique d d'
          exact hp
        · exact fun hp => ⟨i, z, d, hp⟩
      rw [From, To, uniq (fun i x => _), uniq (fun i x => _)]
      cases r.inclusive <;> simp <;> omega
    · cases h
      exact ⟨⟨(fun h => by cases h), fun ⟨i, y, h⟩ => absurd h (hn i y)⟩, (fun h => by cases h)⟩

theorem opt_ok {E : Env} {T : Tree} (hE : Good E T) {r : Option Parse.Range} {x : Option Life.Range} {e : Nat}
    (h : MITLopt E r = .ok (x, e)) :
    (e = 0 ↔ ∀ q, r = some q → ∃ i y, Spec.Life.Denotes T (q.target.map ident) i y) ∧
    (e = 0 → Flat T → ∀ n, ((∀ q, r = some q → From T q n) ↔
        ∀ q, x = some q → (q.inclusive = true → q.nums.id ≤ n) ∧ (q.inclusive = false → q.nums.next ≤ n)) ∧
      ((∀ q, r = some q → To T q n) ↔
        ∀ q, x = some q → (q.inclusive = true → n < q.nums.next) ∧ (q.inclusive = false → n < q.nums.id))) := by
  cases r with
  | none =>
    cases h
    simp
  | some r =>
    rw [MITLopt] at h
    obtain ⟨⟨y, e'⟩, hy, h⟩ := Res.bind_eq_ok.1 h
    cases h
    obtain ⟨h1, h2⟩ := range_ok hE hy
    simpa using ⟨h1, h2⟩

theorem node_error {b : Bool} {l : Parse.Lifetime} :
    nodeError b l = 0 ↔ ¬ (b = true ∧ (l.type = .mandatory ∨ l.type = .optional)) := by
  cases b <;> cases h : l.type <;> simp [nodeError, h]

theorem lifetime_ok {E : Env} {T : Tree} (hE : Good E T) {b : Bool} {l : Parse.Lifetime} {x : Life.Lifetime} {e : Nat}
    (h : MITLilifetime E b l = .ok (x, e)) :
    (e = 0 ↔ ¬ (b = true ∧ (l.type = .mandatory ∨ l.type = .optional)) ∧ ¬ Dangling T l) ∧ x.kind = kindOf l.type ∧
    (e = 0 → Flat T → ∀ n p, Spec.Life.Forbids x n p ↔ Forbids T l n p) := by
  rw [MITLilifetime] at h
  obtain ⟨⟨y, e1⟩, h1, h⟩ := Res.bind_eq_ok.1 h
  obtain ⟨⟨z, e2⟩, h2, h⟩ := Res.bind_eq_ok.1 h
  cases h
  obtain ⟨a1, b1⟩ := opt_ok hE h1
  obtain ⟨a2, b2⟩ := opt_ok hE h2
  refine ⟨?_, rfl, ?_⟩
  · rw [show nodeError b l + e1 + e2 = 0 ↔ nodeError b l = 0 ∧ e1 = 0 ∧ e2 = 0 by omega, node_error, a1, a2]
    refine and_congr_right fun _ => ?_
    constructor
    · rintro ⟨g1, g2⟩ ⟨r, hr, hn⟩
      rcases hr with hr | hr
      · obtain ⟨i, y, d⟩ := g1 r hr
        exact hn i y d
      · obtain ⟨i, y, d⟩ := g2 r hr
        exact hn i y d
    · intro g
      refine ⟨fun q hq => Classical.byContradiction fun hn => g ⟨q, Or.inl hq, fun i x d => hn ⟨i, x, d⟩⟩,
        fun q hq => Classical.byContradiction fun hn => g ⟨q, Or.inr hq, fun i x d => hn ⟨i, x, d⟩⟩⟩
  · intro he hF n p
    have hin : Spec.Life.InRange y z n ↔ Inside T l n := by
      rw [Spec.Life.InRange, Inside, (b1 (by omega) hF n).1, (b2 (by omega) hF n).2]
    rw [Spec.Life.Forbids, Forbids]
    cases l.type <;> simp only [kindOf, hin]

/-- The lifetimes of a thing, before and after. -/
structure Match (T : Tree) (ls : List Parse.Lifetime) (xs : List Life.Lifetime) : Prop where
  length : xs.length = ls.length
  head : ∀ l ls', ls = l :: ls' → ∃ x xs', xs = x :: xs' ∧ x.kind = kindOf l.type ∧
    (Flat T → ∀ n p, Spec.Life.Forbids x n p ↔ Forbids T l n p)

/-- What is reported for the lifetimes of a thing. -/
def Bad (T : Tree) (b : Bool) (ls : List Parse.Lifetime) : Prop :=
  ∃ l, ls.head? = some l ∧ ((b = true ∧ (l.type = .mandatory ∨ l.type = .optional)) ∨ Dangling T l)

theorem lifetimes_ok {E : Env} {T : Tree} (hE : Good E T) {b : Bool} {ls : List Parse.Lifetime} {xs : List Life.Lifetime} {e : Nat}
    (h : MITLlifetimes E b ls = .ok (xs, e)) : (e = 0 ↔ ¬ Bad T b ls) ∧ (e = 0 → Match T ls xs) := by
  cases ls with
  | nil =>
    cases h
    exact ⟨by simp [Bad], fun _ => ⟨rfl, fun _ _ h => by cases h⟩⟩
  | cons l ls =>
    rw [MITLlifetimes] at h
    obtain ⟨⟨y, e'⟩, h1, h⟩ := Res.bind_eq_ok.1 h
    cases h
    obtain ⟨g1, g2, g3⟩ := lifetime_ok hE h1
    refine ⟨?_, fun he => ⟨by simp, fun m ms hm => ?_⟩⟩
    · rw [g1]
      simp only [Bad, List.head?_cons, Option.some.injEq, exists_eq_left', not_or]
    · cases hm
      exact ⟨y, _, rfl, g2, g3 he⟩

theorem all_ok {E : Env} {T : Tree} (hE : Good E T) : ∀ {lss : List (List Parse.Lifetime)} {xss : List (List Life.Lifetime)} {e : Nat},
    MITLall E lss = .ok (xss, e) → (e = 0 ↔ ∀ ls ∈ lss, ¬ Bad T false ls) ∧ (e = 0 → Pairs (Match T) lss xss)
  | [], _, _, h => by cases h; exact ⟨by simp, fun _ => .nil⟩
  | ls :: lss, _, _, h => by
    rw [MITLall] at h
    obtain ⟨⟨y, e1⟩, h1, h⟩ := Res.bind_eq_ok.1 h
    obtain ⟨⟨z, e2⟩, h2, h⟩ := Res.bind_eq_ok.1 h
    cases h
    obtain ⟨a1, b1⟩ := lifetimes_ok hE h1
    obtain ⟨a2, b2⟩ := all_ok hE h2
    refine ⟨?_, fun he => .cons (b1 (by omega)) (b2 (by omega))⟩
    rw [show e1 + e2 = 0 ↔ e1 = 0 ∧ e2 = 0 by omega, a1, a2]
    simp

/-- The lifetimes of a node, before and after. -/
structure NodeMatch (T : Tree) (n : Parse.Node) (attrs : List Propagate.Attr) (l : Lives) : Prop where
  node : Match T n.lifetimes l.node
  kind : ∀ m ls, n.lifetimes = m :: ls → ¬ (m.type = .mandatory ∨ m.type = .optional)
  children : Pairs (Match T) (n.children.map (·.lifetimes)) l.children
  attrs : Pairs (Match T) (attrs.map (·.lifetimes)) l.attrs

/-- What is reported for a node. -/
def NodeBad (T : Tree) (n : Parse.Node) (attrs : List Propagate.Attr) : Prop :=
  Bad T true n.lifetimes ∨ (∃ c ∈ n.children, Bad T false c.lifetimes) ∨ ∃ a ∈ attrs, Bad T false a.lifetimes

theorem inode_ok {E : Env} {T : Tree} (hE : Good E T) {n : Parse.Node} {attrs : List Propagate.Attr} {l : Lives} {e : Nat}
    (h : MITLinode E n attrs = .ok (l, e)) : (e = 0 ↔ ¬ NodeBad T n attrs) ∧ (e = 0 → NodeMatch T n attrs l) := by
  rw [MITLinode] at h
  obtain ⟨⟨y, e1⟩, h1, h⟩ := Res.bind_eq_ok.1 h
  obtain ⟨⟨z, e2⟩, h2, h⟩ := Res.bind_eq_ok.1 h
  obtain ⟨⟨w, e3⟩, h3, h⟩ := Res.bind_eq_ok.1 h
  cases h
  obtain ⟨a1, b1⟩ := lifetimes_ok hE h1
  obtain ⟨a2, b2⟩ := all_ok hE h2
  obtain ⟨a3, b3⟩ := all_ok hE h3
  refine ⟨?_, fun he => ⟨b1 (by omega), fun m ls hm hk => ?_, b2 (by omega), b3 (by omega)⟩⟩
  · rw [show e1 + e2 + e3 = 0 ↔ e1 = 0 ∧ e2 = 0 ∧ e3 = 0 by omega, a1, a2, a3]
    simp [NodeBad]
  · exact a1.1 (by omega) ⟨m, by rw [hm]; rfl, Or.inl ⟨rfl, hk⟩⟩

theorem inodes_ok {E : Env} {T : Tree} (hE : Good E T) {attrs : Target → List Propagate.Attr} :
    ∀ {ns : List Parse.Node} {i : Nat} {ls : List Lives} {e : Nat}, MITLinodes E attrs i ns = .ok (ls, e) →
      (e = 0 ↔ ∀ (k : Nat) n, ns[k]? = some n → ¬ NodeBad T n (attrs (.node (i + k)))) ∧
      (e = 0 → ls.length = ns.length ∧ ∀ (k : Nat) n l, ns[k]? = some n → ls[k]? = some l → NodeMatch T n (attrs (.node (i + k))) l)
  | [], _, _, _, h => by cases h; exact ⟨by simp, fun _ => ⟨rfl, fun k n l hk => by simp at hk⟩⟩
  | n :: ns, i, _, _, h => by
    rw [MITLinodes] at h
    obtain ⟨⟨y, e1⟩, h1, h⟩ := Res.bind_eq_ok.1 h
    obtain ⟨⟨z, e2⟩, h2, h⟩ := Res.bind_eq_ok.1 h
    cases h
    obtain ⟨a1, b1⟩ := inode_ok hE h1
    obtain ⟨a2, b2⟩ := inodes_ok hE h2
    refine ⟨?_, fun he => ⟨by simp [(b2 (by omega)).1], fun k m l hk hl => ?_⟩⟩
    · rw [show e1 + e2 = 0 ↔ e1 = 0 ∧ e2 = 0 by omega, a1, a2]
      constructor
      · rintro ⟨g1, g2⟩ k m hk
        cases k with
        | zero => cases hk; exact g1
        | succ k =>
          have := g2 k m hk
          rwa [Nat.add_assoc, Nat.add_comm 1] at this
      · intro g
        refine ⟨g 0 n rfl, fun k m hk => ?_⟩
        have := g (k + 1) m hk
        rwa [Nat.add_assoc, Nat.add_comm 1]
    · cases k with
      | zero => cases hk; cases hl; exact b1 (by omega)
      | succ k =>
        have := (b2 (by omega)).2 k m l hk hl
        rwa [Nat.add_assoc, Nat.add_comm 1] at this

/-! ### Enough fuel -/

theorem inodes_total {E : Env} (h : ∀ ts, ∃ r, Life.MITLlifetime_range E.ph E.ids E.fuel E.start ts = .ok r)
    (attrs : Target → List Propagate.Attr) : ∀ (ns : List Parse.Node) (i : Nat), ∃ r, MITLinodes E attrs i ns = .ok r := by
  have hr : ∀ r, ∃ x, MITLrange E r = .ok x := by
    intro r
    obtain ⟨x, hx⟩ := h (r.target.map idOf)
    rw [MITLrange, hx, Res.bind_ok]
    cases x <;> exact ⟨_, rfl⟩
  have ho : ∀ r, ∃ x, MITLopt E r = .ok x := by
    intro r
    cases r with
    | none => exact ⟨_, rfl⟩
    | some r =>
      obtain ⟨⟨x, xe⟩, hx⟩ := hr r
      rw [MITLopt, hx, Res.bind_ok]
      exact ⟨_, rfl⟩
  have hl : ∀ b ls, ∃ x, MITLlifetimes E b ls = .ok x := by
    intro b ls
    cases ls with
    | nil => exact ⟨_, rfl⟩
    | cons l ls =>
      obtain ⟨⟨x, xe⟩, hx⟩ := ho l.begin?
      obtain ⟨⟨y, ye⟩, hy⟩ := ho l.end?
      simp only [MITLlifetimes, MITLilifetime, hx, hy, Res.bind_ok]
      exact ⟨_, rfl⟩
  have ha : ∀ lss, ∃ x, MITLall E lss = .ok x := by
    intro lss
    induction lss with
    | nil => exact ⟨_, rfl⟩
    | cons ls lss ih =>
      obtain ⟨⟨x, xe⟩, hx⟩ := hl false ls
      obtain ⟨⟨y, ye⟩, hy⟩ := ih
      simp only [MITLall, hx, hy, Res.bind_ok]
      exact ⟨_, rfl⟩
  intro ns
  induction ns with
  | nil => exact fun _ => ⟨_, rfl⟩
  | cons n ns ih =>
    intro i
    obtain ⟨⟨x, xe⟩, hx⟩ := hl true n.lifetimes
    obtain ⟨⟨y, ye⟩, hy⟩ := ha (n.children.map (·.lifetimes))
    obtain ⟨⟨z, ze⟩, hz⟩ := ha ((attrs (.node i)).map (·.lifetimes))
    obtain ⟨⟨w, we⟩, hw⟩ := ih (i + 1)
    simp only [MITLinodes, MITLinode, hx, hy, hz, hw, Res.bind_ok]
    exact ⟨_, rfl⟩

/-! ### The phase -/

theorem unpack_ok {fuel : Nat} {A : Parse.Ast} {o : Semantic.Out} {u : Out} (h : unpack fuel A o = .ok u) :
    CLTast A o.attrs = 0 ∧ ∃ s ids ls, o.start = some s ∧ Life.AITAast (phasesOf A o.tab) fuel (some s) = .ok ids ∧
      MITLinodes ⟨phasesOf A o.tab, ids, fuel, s⟩ o.attrs 0 A.nodes = .ok (ls, 0) ∧
      u = ⟨List.zipWith (declOf o) A.nodes ls, CSMast A⟩ := by
  rw [unpack] at h
  obtain ⟨_, h1, h⟩ := Res.bind_eq_ok.1 h
  obtain ⟨ids, h2, h⟩ := Res.bind_eq_ok.1 h
  have hc : CLTast A o.attrs = 0 := by
    cases hn : CLTast A o.attrs with
    | zero => rfl
    | succ n => rw [hn] at h1; cases h1
  refine ⟨hc, ?_⟩
  cases hs : o.start with
  | none => rw [hs] at h; cases h
  | some s =>
    rw [hs] at h h2
    obtain ⟨⟨ls, e⟩, h3, h⟩ := Res.bind_eq_ok.1 h
    obtain ⟨_, h4, h⟩ := Res.bind_eq_ok.1 h
    cases h
    cases e with
    | zero => exact ⟨s, ids, ls, rfl, h2, h3, rfl⟩
    | succ n => cases h4

theorem filter_unique {α : Type} {p : α → Bool} : ∀ {l : List α} (_ : (l.filter p).length ≤ 1) {i j : Nat} {a b : α},
    l[i]? = some a → p a = true → l[j]? = some b → p b = true → i = j
  | [], _, i, _, _, _, h1, _, _, _ => by simp at h1
  | x :: l, h, i, j, a, b, h1, h2, h3, h4 => by
    have zero : ∀ {k : Nat} {c : α}, p x = true → l[k]? = some c → p c = true → False := by
      intro k c hx hk hc
      have hm : c ∈ l.filter p := List.mem_filter.2 ⟨List.mem_of_getElem? hk, hc⟩
      rw [List.filter_cons, if_pos hx, List.length_cons] at h
      have := List.length_pos_of_mem hm
      omega
    cases i with
    | zero =>
      cases h1
      cases j with
      | zero => rfl
      | succ j => exact (zero h2 h3 h4).elim
    | succ i =>
      cases j with
      | zero => cases h3; exact (zero h4 h1 h2).elim
      | succ j =>
        have hl : (l.filter p).length ≤ 1 := by
          rw [List.filter_cons] at h
          split at h
          · rw [List.length_cons] at h; omega
          · exact h
        rw [filter_unique hl h1 h2 h3 h4]

theorem start_eq {A : Parse.Ast} {o : Semantic.Out} (hf : Facts A o) {s : Nat} {T : Tree} (hc : Compiler A s T) : o.start = some s := by
  obtain ⟨p, h1, h2, _⟩ := hc
  cases hs : o.start with
  | none => rw [hf.noStart hs p (List.mem_of_getElem? h1)] at h2; cases h2
  | some i =>
    obtain ⟨q, h3, h4⟩ := hf.start i hs
    have := hf.right.sound.start
    have hi : ∀ {k : Nat} {x : Parse.Phase}, A.phases[k]? = some x → (Semantic.progOf A).phases[k]? =
        some ⟨idOf x.name, x.uid.map idOf, x.start, x.actions.map idOf⟩ := by
      intro k x hx
      simp [Semantic.progOf, hx]
    rw [filter_unique this (hi h3) h4 (hi h1) h2]

theorem good_of {A : Parse.Ast} {tab : List (Ste Decl)} (h : Right A tab) {s : Nat} {T : Tree} (hc : Compiler A s T) (hp : Plain A s T)
    {fuel : Nat} {ids : Life.Addr → Nat} (ha : Life.AITAast (phasesOf A tab) fuel (some s) = .ok ids) :
    Good ⟨phasesOf A tab, ids, fuel, s⟩ T := by
  obtain ⟨p, h1, _, h3⟩ := hc
  have hU := acts_unfolds h h3
  refine ⟨⟨_, phases_get h1, hU⟩, Life.AITAast_spec (phases_get h1) hU hp.once (fun j h4 h5 q hq hr => ?_) ha⟩
  exact hp.behind j h4 (by simpa [phasesOf] using h5) q hq (reaches_leads h hr)

/-! ### Attributes -/

theorem name_eq {l : List Propagate.Attr} (h : (l.map (·.name)).Nodup) {a b : Propagate.Attr} (ha : a ∈ l) (hb : b ∈ l)
    (hn : a.name = b.name) : a = b := ProductRules.nodup_eq h ha hb hn

variable {addr : Semantic.Loc → Nat} {A : Parse.Ast} {o : Semantic.Out}

theorem effective_of (hf : Facts A o) (hw : World addr A o.attrs (Semantic.cprEnv A o.tab o.attrs) o.members o.spec) {k : Nat}
    {n : Parse.Node} (hn : A.nodes[k]? = some n) {b : Propagate.Attr} (hb : b ∈ o.attrs (.node k)) :
    ∃ a, Effective A k a ∧ Like a b ∧ b.lifetimes = a.lifetimes := by
  have hk := (List.getElem?_eq_some_iff.1 hn).1
  obtain ⟨a, ha, hl, hke⟩ := hf.nodeKept k hk b hb
  cases ha with
  | own h1 h2 => exact ⟨a, .own h1 h2, hl, hke.life⟩
  | @member i s h1 h2 h3 =>
    by_cases he : ∃ c ∈ n.attrs, SameName c.name.orig a.name.orig
    · obtain ⟨c, hc, hs⟩ := he
      obtain ⟨b', hb', hl', hk'⟩ := hf.ownNode k n hn c hc
      have : b' = b := name_eq (hw.distinctAttrs.1 k hk) hb' hb (by rw [hl'.name, hl.name]; exact Semantic.lwr_code.2 hs)
      rw [this] at hl' hk'
      exact ⟨c, .own hn hc, hl', hk'.life⟩
    · exact ⟨a, .member hn h1 h2 h3 (fun c hc hs => he ⟨c, hc, hs⟩), hl, hke.life⟩

theorem effective_to (hf : Facts A o) (hw : World addr A o.attrs (Semantic.cprEnv A o.tab o.attrs) o.members o.spec) (hg : Agree A)
    {k : Nat} {a : Parse.Attr} (ha : Effective A k a) :
    ∃ n, A.nodes[k]? = some n ∧ ∀ b ∈ o.attrs (.node k), b.name = code (idOf a.name).lwr → b.lifetimes = a.lifetimes := by
  have hn : ∃ n, A.nodes[k]? = some n := by
    cases ha with
    | own h1 _ => exact ⟨_, h1⟩
    | member h1 _ _ _ _ => exact ⟨_, h1⟩
  obtain ⟨n, hn⟩ := hn
  refine ⟨n, hn, fun b hb hbn => ?_⟩
  obtain ⟨a', ha', hl, hli⟩ := effective_of hf hw hn hb
  rw [hli]
  refine hg k a' a ha' ha ?_
  rw [hl.name] at hbn
  exact Semantic.lwr_code.1 hbn

theorem effective_in (hw : World addr A o.attrs (Semantic.cprEnv A o.tab o.attrs) o.members o.spec) {k : Nat} {a : Parse.Attr}
    (ha : Effective A k a) : ∃ b ∈ o.attrs (.node k), b.name = code (idOf a.name).lwr := by
  cases ha with
  | own h1 h2 =>
    obtain ⟨b, hb, hl⟩ := (hw.nodeAttrs k (List.getElem?_eq_some_iff.1 h1).1).1 a (.own h1 h2)
    exact ⟨b, hb, hl.name⟩
  | member h1 h2 h3 h4 _ =>
    obtain ⟨b, hb, hl⟩ := (hw.nodeAttrs k (List.getElem?_eq_some_iff.1 h1).1).1 a (.member h2 h3 h4)
    exact ⟨b, hb, hl.name⟩

/-! ### The types of attributes with lifetimes -/

theorem pointer_iff {a : Parse.Attr} : Semantic.Pointer (Semantic.progOf A) a ↔ Pointer A a := by
  unfold Semantic.Pointer Pointer
  refine or_congr Iff.rfl (and_congr Iff.rfl (exists_congr fun r => and_congr Iff.rfl (or_congr ?_ ?_)))
  · constructor
    · intro h
      obtain ⟨k, n, h1, h2⟩ := Semantic.denotes_node h
      exact ⟨n, List.mem_of_getElem? h1, h2⟩
    · rintro ⟨n, h1, h2⟩
      obtain ⟨k, hk⟩ := List.getElem?_of_mem h1
      exact ⟨(idOf n.name, ⟨.node, k⟩), Semantic.node_declared _ k _ (by simp [CheckExist.Prog.ids, Semantic.progOf, hk]), h2, rfl⟩
  · constructor
    · intro h
      obtain ⟨k, n, h1, h2⟩ := Semantic.denotes_set h
      exact ⟨n, List.mem_of_getElem? h1, h2⟩
    · rintro ⟨n, h1, h2⟩
      obtain ⟨k, hk⟩ := List.getElem?_of_mem h1
      exact ⟨(idOf n.name, ⟨.nodeset, k⟩), Props.nodeset_declared _ k _ (by simp [CheckExist.Prog.ids, Semantic.progOf, hk]), h2, rfl⟩

theorem clt_attr {b : Propagate.Attr} : CLTattribute b = false ↔
    (b.lifetimes ≠ [] → b.type = .link ∨ b.type = .basic (Semantic.primOf .string)) := by
  cases hl : b.lifetimes with
  | nil => simp [CLTattribute, hl]
  | cons l ls => cases ht : b.type <;> simp [CLTattribute, hl, ht]

theorem clt_zero (hf : Facts A o) (hp : Spec.Semantic.TypesNamed A) : CLTast A o.attrs = 0 ↔
    (∀ n ∈ A.nodes, ∀ a ∈ n.attrs, a.lifetimes ≠ [] → Pointer A a) ∧ ∀ s ∈ A.nodesets, ∀ a ∈ s.attrs, a.lifetimes ≠ [] → Pointer A a := by
  have nodeTypes : ∀ n ∈ A.nodes, ∀ a ∈ n.attrs, Spec.CheckExist.AttrOk (Semantic.progOf A) (Semantic.attrOf a) := fun n hn a ha =>
    (hf.right.sound.fields ⟨idOf n.name, n.root, n.children.map Semantic.childOf, n.attrs.map Semantic.attrOf⟩
      (List.mem_map.2 ⟨n, hn, rfl⟩)).2.1 _ (List.mem_map.2 ⟨a, ha, rfl⟩)
  have setTypes : ∀ n ∈ A.nodesets, ∀ a ∈ n.attrs, Spec.CheckExist.AttrOk (Semantic.progOf A) (Semantic.attrOf a) := fun n hn a ha =>
    (hf.right.sound.setAttrs ⟨idOf n.name, some (Semantic.exprOf n.expr), n.attrs.map Semantic.attrOf⟩
      (List.mem_map.2 ⟨n, hn, rfl⟩)).2 _ (List.mem_map.2 ⟨a, ha, rfl⟩)
  have node : ∀ n ∈ A.nodes, ∀ a ∈ n.attrs, ∀ b, Kept (Semantic.progOf A) a b →
      ((b.type = .link ∨ b.type = .basic (Semantic.primOf .string)) ↔ Pointer A a) := fun n hn a ha b hk =>
    (hk.pointer (nodeTypes n hn a ha) (hp.nodes n hn a ha)).trans pointer_iff
  have set : ∀ n ∈ A.nodesets, ∀ a ∈ n.attrs, ∀ b, Kept (Semantic.progOf A) a b →
      ((b.type = .link ∨ b.type = .basic (Semantic.primOf .string)) ↔ Pointer A a) := fun n hn a ha b hk =>
    (hk.pointer (setTypes n hn a ha) (hp.sets n hn a ha)).trans pointer_iff
  have unf : CLTast A o.attrs = 0 ↔ (∀ k, k < A.nodes.length → ∀ b ∈ o.attrs (.node k), CLTattribute b = false) ∧
      ∀ k, k < A.nodesets.length → ∀ b ∈ o.attrs (.set k), CLTattribute b = false := by
    rw [CLTast, Nat.add_eq_zero_iff, List.length_eq_zero_iff, List.length_eq_zero_iff]
    simp only [List.filter_eq_nil_iff, List.mem_flatMap, List.mem_range, Bool.not_eq_true]
    constructor
    · rintro ⟨h1, h2⟩
      exact ⟨fun k hk b hb => h1 b ⟨k, hk, hb⟩, fun k hk b hb => h2 b ⟨k, hk, hb⟩⟩
    · rintro ⟨h1, h2⟩
      exact ⟨fun b ⟨k, hk, hb⟩ => h1 k hk b hb, fun b ⟨k, hk, hb⟩ => h2 k hk b hb⟩
  rw [unf]
  constructor
  · rintro ⟨h1, h2⟩
    refine ⟨fun n hn a ha hl => ?_, fun n hn a ha hl => ?_⟩
    · obtain ⟨k, hk⟩ := List.getElem?_of_mem hn
      obtain ⟨b, hb, _, hke⟩ := hf.ownNode k n hk a ha
      exact (node n hn a ha b hke).1 (clt_attr.1 (h1 k (List.getElem?_eq_some_iff.1 hk).1 b hb) (by rw [hke.life]; exact hl))
    · obtain ⟨k, hk⟩ := List.getElem?_of_mem hn
      obtain ⟨b, hb, _, hke⟩ := hf.ownSet k n hk a ha
      exact (set n hn a ha b hke).1 (clt_attr.1 (h2 k (List.getElem?_eq_some_iff.1 hk).1 b hb) (by rw [hke.life]; exact hl))
  · rintro ⟨h1, h2⟩
    refine ⟨fun k hk b hb => clt_attr.2 fun hl => ?_, fun k hk b hb => clt_attr.2 fun hl => ?_⟩
    · obtain ⟨a, ha, _, hke⟩ := hf.nodeKept k hk b hb
      rw [hke.life] at hl
      cases ha with
      | own g1 g2 => exact (node _ (List.mem_of_getElem? g1) a g2 b hke).2 (h1 _ (List.mem_of_getElem? g1) a g2 hl)
      | member g1 g2 _ => exact (set _ (List.mem_of_getElem? g1) a g2 b hke).2 (h2 _ (List.mem_of_getElem? g1) a g2 hl)
    · obtain ⟨a, ha, _, hke⟩ := hf.setKept k hk b hb
      rw [hke.life] at hl
      cases ha with
      | own g1 g2 => exact (set _ (List.mem_of_getElem? g1) a g2 b hke).2 (h2 _ (List.mem_of_getElem? g1) a g2 hl)
      | named g1 g2 _ => exact (set _ (List.mem_of_getElem? g1) a g2 b hke).2 (h2 _ (List.mem_of_getElem? g1) a g2 hl)

/-! ### The types of children -/

theorem types_fits (hf : Facts A o) (hw : World addr A o.attrs (Semantic.cprEnv A o.tab o.attrs) o.members o.spec) (c : Parse.Child)
    (k : Nat) : k ∈ typesOf o.tab o.members c ↔ Fits A c.type k := by
  have hn := fun j => hf.right.table.node c.type.orig j
  have hs := fun j => hf.right.table.set c.type.orig j
  have mem : ∀ j, j < A.nodesets.length → (k ∈ (o.members j).filterMap entryNode ↔ Member A j k) := by
    intro j hj
    rw [← (hw.member j hj).2 k, List.mem_filterMap]
    constructor
    · rintro ⟨e, he, h⟩
      cases e <;> cases h
      exact he
    · exact fun h => ⟨_, h, rfl⟩
  rw [typesOf, show (idOf c.type).lwr = c.type.orig.map lowerB from rfl]
  constructor
  · intro h
    split at h
    · rename_i j e
      cases List.mem_singleton.1 h
      exact Or.inl ((hn _).1 e)
    · rename_i j e
      obtain ⟨s, h1, h2⟩ := (hs j).1 e
      exact Or.inr ⟨j, s, h1, h2, (mem j (List.getElem?_eq_some_iff.1 h1).1).1 h⟩
    · cases h
  · rintro (h | ⟨j, s, h1, h2, h3⟩)
    · rw [(hn k).2 h]
      exact List.mem_singleton.2 rfl
    · rw [(hs j).2 ⟨s, h1, h2⟩]
      exact (mem j (List.getElem?_eq_some_iff.1 h1).1).2 h3

/-! ### Mandatory children -/

theorem csm_iff : ∀ (ls : List Parse.Lifetime) (b : Bool), CSMlifetimes ls b = true ↔
    b = true ∨ ∃ l ∈ ls, l.type = .mandatory ∧ l.begin? = none ∧ l.end? = none
  | [], b => by simp [CSMlifetimes]
  | l :: ls, b => by
    rw [CSMlifetimes]
    split
    · rename_i h1 h2 h3
      rw [csm_iff ls true]
      simp [h1, h2, h3]
    · rename_i hn
      rw [csm_iff ls b]
      simp only [List.mem_cons, exists_eq_or_imp]
      constructor
      · rintro (h | h)
        · exact Or.inl h
        · exact Or.inr (Or.inr h)
      · rintro (h | ⟨h1, h2, h3⟩ | h)
        · exact Or.inl h
        · exact absurd h3 (hn h1 h2)
        · exact Or.inr h

/-! ### What is wrong with a node -/

theorem match_single {T : Tree} (hF : Flat T) {ls : List Parse.Lifetime} {xs : List Life.Lifetime} (h : Match T ls xs)
    (h1 : ls.length ≤ 1) (n : Nat) (p : Bool) : (∃ x ∈ xs, Spec.Life.Forbids x n p) ↔ ∃ l ∈ ls, Forbids T l n p := by
  cases ls with
  | nil =>
    have := List.length_eq_zero_iff.1 h.length
    simp [this]
  | cons l ls =>
    have : ls = [] := List.length_eq_zero_iff.1 (by simpa using h1)
    obtain ⟨x, xs', rfl, _, hx⟩ := h.head l ls rfl
    have hl := h.length
    rw [this] at hl ⊢
    have : xs' = [] := List.length_eq_zero_iff.1 (by simpa using hl)
    simp [this, hx hF n p]

theorem single_attr (hf : Facts A o) (hw : World addr A o.attrs (Semantic.cprEnv A o.tab o.attrs) o.members o.spec) (hS : Single A)
    {k : Nat} {n : Parse.Node} (hn : A.nodes[k]? = some n) {b : Propagate.Attr} (hb : b ∈ o.attrs (.node k)) : b.lifetimes.length ≤ 1 := by
  obtain ⟨a, ha, _, hl⟩ := effective_of hf hw hn hb
  rw [hl]
  cases ha with
  | own h1 h2 => exact hS.attr _ (List.mem_of_getElem? h1) a h2
  | member _ h1 h2 _ _ => exact hS.setAttr _ (List.mem_of_getElem? h1) a h2

/-- The children of a node, as the generator reads them. -/
theorem child_get {T : Tree} {n : Parse.Node} {l : Lives} {attrs : List Propagate.Attr} (hm : NodeMatch T n attrs l) {j : Nat}
    {d : Life.Child} : (declOf o n l).children[j]? = some d ↔ ∃ c ls, n.children[j]? = some c ∧ l.children[j]? = some ls ∧
      Match T c.lifetimes ls ∧ d = ⟨typesOf o.tab o.members c, ls⟩ := by
  simp only [declOf, List.getElem?_zipWith_eq_some]
  constructor
  · rintro ⟨c, ls, h1, h2, rfl⟩
    obtain ⟨x, h3, h4⟩ := hm.children.right h2
    simp only [List.getElem?_map, h1, Option.map_some, Option.some.injEq] at h3
    subst h3
    exact ⟨c, ls, h1, h2, h4, rfl⟩
  · rintro ⟨c, ls, h1, h2, _, rfl⟩
    exact ⟨c, ls, h1, h2, rfl⟩

theorem child_left {T : Tree} {n : Parse.Node} {l : Lives} {attrs : List Propagate.Attr} (hm : NodeMatch T n attrs l) {j : Nat}
    {c : Parse.Child} (hc : n.children[j]? = some c) : ∃ ls, l.children[j]? = some ls ∧ Match T c.lifetimes ls :=
  hm.children.left (by simp [hc])

theorem decl_single (hf : Facts A o) (hw : World addr A o.attrs (Semantic.cprEnv A o.tab o.attrs) o.members o.spec) (hS : Single A)
    {T : Tree} {k : Nat} {n : Parse.Node} {l : Lives} (hn : A.nodes[k]? = some n) (hm : NodeMatch T n (o.attrs (.node k)) l) :
    Spec.Life.Single (declOf o n l) := by
  have hmem := List.mem_of_getElem? hn
  refine ⟨by rw [declOf, hm.node.length]; exact hS.node n hmem, fun d hd => ?_, fun ls hls => ?_⟩
  · obtain ⟨j, hj⟩ := List.getElem?_of_mem hd
    obtain ⟨c, ls, h1, _, h3, rfl⟩ := (child_get hm).1 hj
    rw [h3.length]
    exact hS.child n hmem c (List.mem_of_getElem? h1)
  · obtain ⟨x, hx, hM⟩ := hm.attrs.mem_right hls
    obtain ⟨b, hb, rfl⟩ := List.mem_map.1 hx
    rw [hM.length]
    exact single_attr hf hw hS hn hb

theorem decl_wrong (hf : Facts A o) (hw : World addr A o.attrs (Semantic.cprEnv A o.tab o.attrs) o.members o.spec) (hS : Single A)
    (hg : Agree A) {T : Tree} (hF : Flat T) {k : Nat} {n : Parse.Node} {l : Lives} (hn : A.nodes[k]? = some n)
    (hm : NodeMatch T n (o.attrs (.node k)) l) (i : Nat) (kids : List (Option Life.Node)) (attrs : List Bool) (r : Life.Report) :
    Spec.Life.Wrong (declOf o n l) i kids attrs r ↔ Wrong A o.spec T i k kids attrs r := by
  have hmem := List.mem_of_getElem? hn
  cases r with
  | node =>
    have := match_single hF hm.node (hS.node n hmem) i true
    simp only [Spec.Life.Wrong, Wrong, declOf, this, hn, Option.some.injEq, exists_eq_left']
  | child j =>
    simp only [Spec.Life.Wrong, Wrong, hn, Option.some.injEq]
    constructor
    · rintro ⟨d, x, hd, hx, h⟩
      obtain ⟨c, ls, h1, _, h3, rfl⟩ := (child_get hm).1 hd
      exact ⟨n, c, x, rfl, h1, hx, (match_single hF h3 (hS.child n hmem c (List.mem_of_getElem? h1)) i _).1 h⟩
    · rintro ⟨_, c, x, rfl, h1, hx, h⟩
      obtain ⟨ls, h2, h3⟩ := child_left hm h1
      exact ⟨_, x, (child_get hm).2 ⟨c, ls, h1, h2, h3, rfl⟩, hx,
        (match_single hF h3 (hS.child n hmem c (List.mem_of_getElem? h1)) i _).2 h⟩
  | type j =>
    simp only [Spec.Life.Wrong, Wrong, hn, Option.some.injEq]
    constructor
    · rintro ⟨d, m, hd, hx, h⟩
      obtain ⟨c, ls, h1, _, _, rfl⟩ := (child_get hm).1 hd
      exact ⟨n, c, m, rfl, h1, hx, fun h' => h ((types_fits hf hw c m.ty).2 h')⟩
    · rintro ⟨_, c, m, rfl, h1, hx, h⟩
      obtain ⟨ls, h2, h3⟩ := child_left hm h1
      exact ⟨_, m, (child_get hm).2 ⟨c, ls, h1, h2, h3, rfl⟩, hx, fun h' => h ((types_fits hf hw c m.ty).1 h')⟩
  | attr j =>
    have hS' : ∃ x, o.spec.nodes[k]? = some x ∧ x.attrs = (o.attrs (.node k)).map (Semantic.iAttr addr (.node k)) := by
      have hk := (List.getElem?_eq_some_iff.1 hn).1
      have hx := List.getElem?_eq_getElem (by rw [hw.nodeLength]; exact hk : k < o.spec.nodes.length)
      obtain ⟨_, nd, _, h2, _, h4⟩ := hw.node hx
      exact ⟨_, hx, by rw [h4.attrs, h2]⟩
    obtain ⟨x, hx, hxa⟩ := hS'
    simp only [Spec.Life.Wrong, Wrong, hx, Option.some.injEq]
    constructor
    · rintro ⟨ls, y, h1, h2, h⟩
      obtain ⟨_, h3, h4⟩ := hm.attrs.right h1
      simp only [List.getElem?_map, Option.map_eq_some_iff] at h3
      obtain ⟨b, h5, rfl⟩ := h3
      have hb := List.mem_of_getElem? h5
      obtain ⟨a, ha, hla, hli⟩ := effective_of hf hw hn hb
      refine ⟨x, _, a, y, rfl, by rw [hxa, List.getElem?_map, h5]; rfl, ha, ?_, h2, ?_⟩
      · show Semantic.decode b.name = _
        rw [hla.name, Semantic.decode_code]
        rfl
      · rw [← hli]
        exact (match_single hF h4 (single_attr hf hw hS hn hb) i y).1 h
    · rintro ⟨_, b', a, y, rfl, h1, ha, h3, h4, h⟩
      rw [hxa, List.getElem?_map] at h1
      obtain ⟨b, h5, rfl⟩ := Option.map_eq_some_iff.1 h1
      have hb := List.mem_of_getElem? h5
      obtain ⟨ls, h6, h7⟩ := hm.attrs.left (k := j) (a := b.lifetimes) (by rw [List.getElem?_map, h5]; rfl)
      refine ⟨ls, y, h6, h4, (match_single hF h7 (single_attr hf hw hS hn hb) i y).2 ?_⟩
      obtain ⟨_, _, hl⟩ := effective_to hf hw hg ha
      rw [hl b hb ?_]
      · exact h
      · obtain ⟨a', _, hla, _⟩ := effective_of hf hw hn hb
        have h3 : Semantic.decode b.name = _ := h3
        rw [hla.name, Semantic.decode_code] at h3
        rw [hla.name, h3]
        rfl

theorem decls_get {A : Parse.Ast} {o : Semantic.Out} {ls : List Lives} (hl : ls.length = A.nodes.length) {k : Nat} {d : Life.NodeDecl} :
    (List.zipWith (declOf o) A.nodes ls)[k]? = some d ↔ ∃ n l, A.nodes[k]? = some n ∧ ls[k]? = some l ∧ d = declOf o n l := by
  rw [List.getElem?_zipWith_eq_some]
  constructor
  · rintro ⟨n, l, h1, h2, rfl⟩; exact ⟨n, l, h1, h2, rfl⟩
  · rintro ⟨n, l, h1, h2, rfl⟩; exact ⟨n, l, h1, h2, rfl⟩

/-- The functions of the check can be written. -/
theorem gen_total : ∀ {ds : List Life.NodeDecl}, (∀ d ∈ ds, ∀ x xs, d.lifetimes = x :: xs → x.kind = .disallowed ∨ x.kind = .allowed) →
    ∃ cs, Life.genAll ds = .ok cs
  | [], _ => ⟨_, rfl⟩
  | d :: ds, h => by
    obtain ⟨cs, hc⟩ := gen_total (ds := ds) fun d hd => h d (List.mem_cons_of_mem _ hd)
    have : ∃ c, Life.genNode d = .ok c := by
      rw [Life.genNode]
      cases hl : d.lifetimes with
      | nil => exact ⟨_, rfl⟩
      | cons x xs =>
        rcases h d List.mem_cons_self x xs hl with hx | hx
        · simp only [Life.nodeLifetimes, Life.nodeGen, hx, Res.bind_ok]
          exact ⟨_, rfl⟩
        · simp only [Life.nodeLifetimes, Life.nodeGen, hx, Res.bind_ok]
          exact ⟨_, rfl⟩
    obtain ⟨c, hc'⟩ := this
    exact ⟨_, by rw [Life.genAll, hc', Res.bind_ok, hc, Res.bind_ok]⟩

/-- The lifetimes of nodes are of two kinds, if nothing is reported. -/
theorem inodes_kind {E : Env} {attrs : Target → List Propagate.Attr} : ∀ {ns : List Parse.Node} {i : Nat} {ls : List Lives},
    MITLinodes E attrs i ns = .ok (ls, 0) → ∀ l ∈ ls, ∀ x xs, l.node = x :: xs → x.kind = .disallowed ∨ x.kind = .allowed
  | [], _, _, h => by cases h; exact fun _ h => by cases h
  | n :: ns, i, _, h => by
    rw [MITLinodes] at h
    obtain ⟨⟨y, e1⟩, h1, h⟩ := Res.bind_eq_ok.1 h
    obtain ⟨⟨z, e2⟩, h2, h⟩ := Res.bind_eq_ok.1 h
    simp only [Res.ok.injEq, Prod.mk.injEq] at h
    obtain ⟨rfl, he⟩ := h
    have he1 : e1 = 0 := by omega
    have he2 : e2 = 0 := by omega
    subst he1 he2
    intro l hl x xs hx
    rcases List.mem_cons.1 hl with rfl | hl
    · rw [MITLinode] at h1
      obtain ⟨⟨a, f1⟩, g1, h1⟩ := Res.bind_eq_ok.1 h1
      obtain ⟨⟨b, f2⟩, g2, h1⟩ := Res.bind_eq_ok.1 h1
      obtain ⟨⟨c, f3⟩, g3, h1⟩ := Res.bind_eq_ok.1 h1
      simp only [Res.ok.injEq, Prod.mk.injEq] at h1
      obtain ⟨rfl, he⟩ := h1
      cases hn : n.lifetimes with
      | nil =>
        rw [hn] at g1
        cases g1
        cases hx
      | cons m ms =>
        rw [hn, MITLlifetimes] at g1
        obtain ⟨⟨d, f4⟩, g4, g1⟩ := Res.bind_eq_ok.1 g1
        cases g1
        cases hx
        rw [MITLilifetime] at g4
        obtain ⟨⟨_, f5⟩, _, g4⟩ := Res.bind_eq_ok.1 g4
        obtain ⟨⟨_, f6⟩, _, g4⟩ := Res.bind_eq_ok.1 g4
        simp only [Res.ok.injEq, Prod.mk.injEq] at g4
        obtain ⟨rfl, hf⟩ := g4
        have : nodeError true m = 0 := by omega
        have := node_error.1 this
        cases hk : m.type
        · exact Or.inl rfl
        · exact absurd ⟨rfl, Or.inl hk⟩ this
        · exact absurd ⟨rfl, Or.inr hk⟩ this
        · exact Or.inr rfl
    · exact inodes_kind h2 l hl x xs hx

theorem inodes_length {E : Env} {attrs : Target → List Propagate.Attr} : ∀ {ns : List Parse.Node} {i : Nat} {ls : List Lives} {e : Nat},
    MITLinodes E attrs i ns = .ok (ls, e) → ls.length = ns.length
  | [], _, _, _, h => by cases h; rfl
  | n :: ns, i, _, _, h => by
    rw [MITLinodes] at h
    obtain ⟨⟨y, e1⟩, h1, h⟩ := Res.bind_eq_ok.1 h
    obtain ⟨⟨z, e2⟩, h2, h⟩ := Res.bind_eq_ok.1 h
    cases h
    simp [inodes_length h2]

/-- A phase that begins with itself. -/
theorem loops {ph : List Life.Phase} {p : Nat} (h : Life.actionAt ph p 0 = some (.phase p)) :
    ∀ (fuel : Nat) (s : Life.Num), Life.AITAiactions ph fuel p 0 s = .diverge
  | 0, _ => rfl
  | fuel + 1, s => by
    rw [Life.AITAiactions, h]
    simp only [loops h fuel]
    rfl

theorem bad_iff {T : Tree} {b : Bool} {ls : List Parse.Lifetime} (h : ls.length ≤ 1) :
    Bad T b ls ↔ ∃ l ∈ ls, (b = true ∧ (l.type = .mandatory ∨ l.type = .optional)) ∨ Dangling T l := by
  cases ls with
  | nil => simp [Bad]
  | cons l ls =>
    have : ls = [] := List.length_eq_zero_iff.1 (by simpa using h)
    simp [Bad, this]

/-- When something is reported. -/
theorem faulty_iff (hf : Facts A o) (hw : World addr A o.attrs (Semantic.cprEnv A o.tab o.attrs) o.members o.spec)
    (hp : Spec.Semantic.TypesNamed A) (hS : Single A) (hg : Agree A) {T : Tree} :
    Faulty A T ↔ CLTast A o.attrs ≠ 0 ∨ ∃ (k : Nat) (n : Parse.Node), A.nodes[k]? = some n ∧ NodeBad T n (o.attrs (.node k)) := by
  constructor
  · intro h
    cases h with
    | nodeAttr h1 h2 h3 h4 => exact Or.inl fun h => h4 (((clt_zero hf hp).1 h).1 _ h1 _ h2 h3)
    | setAttr h1 h2 h3 h4 => exact Or.inl fun h => h4 (((clt_zero hf hp).1 h).2 _ h1 _ h2 h3)
    | kind h1 h2 h3 =>
      obtain ⟨k, hk⟩ := List.getElem?_of_mem h1
      exact Or.inr ⟨k, _, hk, Or.inl ((bad_iff (hS.node _ h1)).2 ⟨_, h2, Or.inl ⟨rfl, h3⟩⟩)⟩
    | node h1 h2 h3 =>
      obtain ⟨k, hk⟩ := List.getElem?_of_mem h1
      exact Or.inr ⟨k, _, hk, Or.inl ((bad_iff (hS.node _ h1)).2 ⟨_, h2, Or.inr h3⟩)⟩
    | child h1 h2 h3 h4 =>
      obtain ⟨k, hk⟩ := List.getElem?_of_mem h1
      exact Or.inr ⟨k, _, hk, Or.inr (Or.inl ⟨_, h2, (bad_iff (hS.child _ h1 _ h2)).2 ⟨_, h3, Or.inr h4⟩⟩)⟩
    | @attr k a l h1 h2 h3 =>
      obtain ⟨n, hn, hl⟩ := effective_to hf hw hg h1
      obtain ⟨b, hb, hbn⟩ := effective_in hw h1
      refine Or.inr ⟨k, n, hn, Or.inr (Or.inr ⟨b, hb, (bad_iff (single_attr hf hw hS hn hb)).2 ⟨l, ?_, Or.inr h3⟩⟩)⟩
      rw [hl b hb hbn]
      exact h2
  · rintro (h | ⟨k, n, hn, h⟩)
    · refine Classical.byContradiction fun hF => h ((clt_zero hf hp).2 ⟨fun n hn a ha hl => ?_, fun n hn a ha hl => ?_⟩)
      · exact Classical.byContradiction fun hP => hF (.nodeAttr hn ha hl hP)
      · exact Classical.byContradiction fun hP => hF (.setAttr hn ha hl hP)
    · have hm := List.mem_of_getElem? hn
      rcases h with h | ⟨c, hc, h⟩ | ⟨b, hb, h⟩
      · obtain ⟨l, hl, ⟨_, h⟩ | h⟩ := (bad_iff (hS.node _ hm)).1 h
        · exact .kind hm hl h
        · exact .node hm hl h
      · obtain ⟨l, hl, ⟨h, _⟩ | h⟩ := (bad_iff (hS.child _ hm c hc)).1 h
        · cases h
        · exact .child hm hc hl h
      · obtain ⟨l, hl, ⟨h, _⟩ | h⟩ := (bad_iff (single_attr hf hw hS hn hb)).1 h
        · cases h
        · obtain ⟨a, ha, _, hli⟩ := effective_of hf hw hn hb
          exact .attr ha (by rw [← hli]; exact hl) h

/-! ### No assertion fails -/

theorem noabort_bind {α β : Type} {x : Res α} {f : α → Res β} (hx : ∀ w, x ≠ .abort w) (hf : ∀ a w, f a ≠ .abort w) :
    ∀ w, (x >>= f) ≠ .abort w := by
  intro w h
  cases x with
  | ok a => exact hf a w h
  | ub v => cases h
  | abort v => exact hx v rfl
  | diverge => cases h

theorem actions_noabort {ph : List Life.Phase} : ∀ (fuel p k : Nat) (s : Life.Num) (w : String), Life.AITAiactions ph fuel p k s ≠ .abort w
  | 0, _, _, _, _ => (fun h => by cases h)
  | fuel + 1, p, k, s, w => by
    rw [Life.AITAiactions]
    split
    · exact (fun h => by cases h)
    · exact (fun h => by cases h)
    · exact noabort_bind (actions_noabort fuel _ _ _) (fun _ => actions_noabort fuel _ _ _) w
    · exact actions_noabort fuel _ _ _ w

theorem phase_noabort {ph : List Life.Phase} (fuel : Nat) : ∀ (n p : Nat) (s : Life.Num) (w : String), Life.AITAiphase ph fuel n p s ≠ .abort w
  | 0, _, _, _ => (fun h => by cases h)
  | n + 1, p, s, w => noabort_bind (actions_noabort fuel _ _ _) (fun _ => phase_noabort fuel n _ _) w

theorem aita_noabort {ph : List Life.Phase} (fuel s : Nat) (w : String) : Life.AITAast ph fuel (some s) ≠ .abort w :=
  noabort_bind (phase_noabort fuel _ _ _) (fun _ _ h => by cases h) w

theorem search_noabort {ph : List Life.Phase} {t : Id} : ∀ (fuel p k : Nat) (l : Life.Last) (w : String),
    Life.MITLiactions ph t fuel p k l ≠ .abort w
  | 0, _, _, _, _ => (fun h => by cases h)
  | fuel + 1, p, k, l, w => by
    rw [Life.MITLiactions]
    split
    · exact (fun h => by cases h)
    · exact (fun h => by cases h)
    · split
      · exact (fun h => by cases h)
      · split
        · exact (fun h => by cases h)
        · refine noabort_bind (search_noabort fuel _ _ _) (fun _ w => ?_) w
          split
          · exact search_noabort fuel _ _ _ w
          · exact (fun h => by cases h)
    · split
      · exact (fun h => by cases h)
      · split
        · exact search_noabort fuel _ _ _ w
        · exact (fun h => by cases h)
    · split
      · exact search_noabort fuel _ _ _ w
      · exact (fun h => by cases h)

theorem target_noabort {ph : List Life.Phase} (fuel s : Nat) : ∀ (ts : List Id) (l : Life.Last) (e : Nat) (w : String),
    Life.MITLid ph fuel s ts l e ≠ .abort w
  | [], l, _, _ => by rw [Life.MITLid]; exact (fun h => by cases h)
  | t :: ts, none, e, w => by
    rw [Life.MITLid]
    refine noabort_bind (search_noabort fuel _ _ _) (fun _ w => ?_) w
    split
    · exact target_noabort fuel s ts _ _ w
    · exact (fun h => by cases h)
  | t :: ts, some (_, .phase q), e, w => by
    rw [Life.MITLid]
    refine noabort_bind (search_noabort fuel _ _ _) (fun _ w => ?_) w
    split
    · exact target_noabort fuel s ts _ _ w
    · exact (fun h => by cases h)
  | t :: ts, some (a, .leaf n u), e, w => by rw [Life.MITLid]; exact target_noabort fuel s ts _ _ w; (intro q h; cases h)
  | t :: ts, some (a, .missing), e, w => by rw [Life.MITLid]; exact target_noabort fuel s ts _ _ w; (intro q h; cases h)
  | t :: ts, some (a, .other), e, w => by rw [Life.MITLid]; exact target_noabort fuel s ts _ _ w; (intro q h; cases h)

theorem range_noabort {E : Env} (r : Parse.Range) : ∀ w, MITLrange E r ≠ .abort w := by
  refine noabort_bind (noabort_bind (target_noabort _ _ _ _ _) fun a w => ?_) fun a w => ?_
  · split
    · exact (fun h => by cases h)
    · split
      · exact (fun h => by cases h)
      · split <;> exact (fun h => by cases h)
    · exact (fun h => by cases h)
  · split <;> exact (fun h => by cases h)

theorem opt_noabort {E : Env} : ∀ (r : Option Parse.Range) (w : String), MITLopt E r ≠ .abort w
  | none, _ => (fun h => by cases h)
  | some r, w => noabort_bind (range_noabort r) (fun _ _ h => by cases h) w

theorem lifetimes_noabort {E : Env} {b : Bool} : ∀ (ls : List Parse.Lifetime) (w : String), MITLlifetimes E b ls ≠ .abort w
  | [], _ => (fun h => by cases h)
  | l :: ls, w => noabort_bind (noabort_bind (opt_noabort _) fun _ => noabort_bind (opt_noabort _) fun _ _ h => by cases h)
      (fun _ _ h => by cases h) w

theorem all_noabort {E : Env} : ∀ (ls : List (List Parse.Lifetime)) (w : String), MITLall E ls ≠ .abort w
  | [], _ => (fun h => by cases h)
  | l :: ls, w => noabort_bind (lifetimes_noabort l) (fun _ => noabort_bind (all_noabort ls) fun _ _ h => by cases h) w

theorem inodes_noabort {E : Env} {attrs : Target → List Propagate.Attr} : ∀ (ns : List Parse.Node) (i : Nat) (w : String),
    MITLinodes E attrs i ns ≠ .abort w
  | [], _, _ => (fun h => by cases h)
  | n :: ns, i, w => noabort_bind (noabort_bind (lifetimes_noabort _) fun _ => noabort_bind (all_noabort _) fun _ =>
      noabort_bind (all_noabort _) fun _ _ h => by cases h) (fun _ => noabort_bind (inodes_noabort ns _) fun _ _ h => by cases h) w

end Verif.Unpack
