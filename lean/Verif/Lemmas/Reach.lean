import Verif.Spec.Reach
import Verif.Lemmas.Graph

/-!
# Lemmas about reachability in a grammar
-/

namespace Verif.Reach
open Verif.Spec.Reach Verif.Spec.Graph
open Verif.Propagate (Entry)

/-- The number of nodes that have not been visited. -/
def left (env : Env) (s : RS) : Nat := ((List.range env.num).filter fun i => !s.visited i).length

/-- The search went from `s` to `s'` and looked at the nodes in `N`. -/
structure Covers (env : Env) (m : Nat → Cell) (s s' : RS) (N : Nat → Prop) : Prop where
  mono : ∀ k, s.visited k = true → s'.visited k = true
  keep : s.reach = true → s'.reach = true
  new : s'.reach = false → ∀ v, s'.visited v = true → s.visited v = false →
    (m v).handled = false ∧ ∀ w, MayHaveChild env v w → s'.visited w = true
  sound : s'.reach = true → s.reach = true ∨ ∃ k t, N k ∧ (m t).handled = true ∧ (k = t ∨ Path (MayHaveChild env) k t)
  all : s'.reach = false → ∀ k, N k → s'.visited k = true

theorem Covers.left {env m s s' N} (h : Covers env m s s' N) : left env s' ≤ left env s := by
  refine Verif.Graph.length_filter_le' _ _ _ fun i _ hi => ?_
  cases hv : s.visited i with
  | false => rfl
  | true => rw [h.mono i hv] at hi; cases hi

theorem Covers.refl {env m} {s : RS} : Covers env m s s fun _ => False :=
  ⟨fun _ h => h, fun h => h, (fun _ v h1 h2 => by rw [h1] at h2; cases h2), fun h => .inl h, fun _ _ h => h.elim⟩

theorem Covers.trans {env m s s' s'' N N'} (h : Covers env m s s' N) (h' : Covers env m s' s'' N') :
    Covers env m s s'' fun k => N k ∨ N' k := by
  have hr : s''.reach = false → s'.reach = false := fun hf => by
    cases hb : s'.reach with
    | false => rfl
    | true => rw [h'.keep hb] at hf; cases hf
  refine ⟨fun k hk => h'.mono k (h.mono k hk), fun hk => h'.keep (h.keep hk), fun hf v h1 h2 => ?_, fun ht => ?_, fun hf k hk => ?_⟩
  · cases hv : s'.visited v with
    | true =>
      obtain ⟨h3, h4⟩ := h.new (hr hf) v hv h2
      exact ⟨h3, fun w hw => h'.mono w (h4 w hw)⟩
    | false => exact h'.new hf v h1 hv
  · rcases h'.sound ht with h1 | ⟨k, t, h1, h2⟩
    · rcases h.sound h1 with h3 | ⟨k, t, h3, h4⟩
      · exact .inl h3
      · exact .inr ⟨k, t, .inl h3, h4⟩
    · exact .inr ⟨k, t, .inr h1, h2⟩
  · rcases hk with hk | hk
    · exact h'.mono k (h.all (hr hf) k hk)
    · exact h'.all hf k hk

theorem Covers.iff {env m s s' N N'} (h : Covers env m s s' N) (hn : ∀ k, N k ↔ N' k) : Covers env m s s' N' :=
  ⟨h.mono, h.keep, h.new, fun ht => (h.sound ht).imp id fun ⟨k, t, h1, h2⟩ => ⟨k, t, (hn k).1 h1, h2⟩,
    fun hf k hk => h.all hf k ((hn k).2 hk)⟩

theorem Covers.stop {env m s s' N N'} (h : Covers env m s s' N) (hr : s'.reach = true) (hn : ∀ k, N k → N' k) :
    Covers env m s s' N' := by
  refine ⟨h.mono, h.keep, fun hf => ?_, fun ht => (h.sound ht).imp id fun ⟨k, t, h1, h2⟩ => ⟨k, t, hn k h1, h2⟩, fun hf => ?_⟩
  · rw [hr] at hf; cases hf
  · rw [hr] at hf; cases hf

/-- What is needed of the call for a node. -/
def Good (env : Env) (m : Nat → Cell) (call : Nat → RS → Res RS) (b : Nat) : Prop :=
  ∀ i s, i < env.num → left env s < b → ∃ s', call i s = .ok s' ∧ Covers env m s s' fun k => k = i

theorem literals_spec {env m call b} (g : Good env m call b) (l : List Entry)
    (hl : ∀ e, e ∈ l → ∃ k, e = .node k ∧ k < env.num) (s : RS) (hs : left env s < b) :
    ∃ s', rcbLiterals call l s = .ok s' ∧ Covers env m s s' fun k => .node k ∈ l := by
  induction l generalizing s with
  | nil => exact ⟨s, rfl, Covers.refl.iff (by simp)⟩
  | cons e rest ih =>
    obtain ⟨k, rfl, hk⟩ := hl e List.mem_cons_self
    obtain ⟨s1, h1, c1⟩ := g k s hk hs
    obtain ⟨s2, h2, c2⟩ := ih (fun e he => hl e (List.mem_cons_of_mem _ he)) s1 (Nat.lt_of_le_of_lt c1.left hs)
    exact ⟨s2, by rw [rcbLiterals, h1, Res.bind_ok, h2], (c1.trans c2).iff (by simp)⟩

theorem sets_spec {env m call b} (g : Good env m call b) (ls : List (List Entry))
    (hl : ∀ l, l ∈ ls → ∀ e, e ∈ l → ∃ k, e = .node k ∧ k < env.num) (s : RS) (hs : left env s < b) :
    ∃ s', RCBinodeset call ls s = .ok s' ∧ Covers env m s s' fun k => ∃ l, l ∈ ls ∧ .node k ∈ l := by
  induction ls generalizing s with
  | nil => exact ⟨s, rfl, Covers.refl.iff (by simp)⟩
  | cons l rest ih =>
    obtain ⟨s1, h1, c1⟩ := literals_spec g l (hl l List.mem_cons_self) s hs
    obtain ⟨s2, h2, c2⟩ := ih (fun e he => hl e (List.mem_cons_of_mem _ he)) s1 (Nat.lt_of_le_of_lt c1.left hs)
    exact ⟨s2, by rw [RCBinodeset, h1, Res.bind_ok, h2], (c1.trans c2).iff (by simp)⟩

/-- The nodes a type stands for in the search. -/
def Stands (env : Env) (c : CType) (k : Nat) : Prop :=
  c = .node k ∨ ∃ j j' l, c = .set j ∧ j ≤ j' ∧ env.sets[j']? = some l ∧ .node k ∈ l

theorem mem_drop {α : Type} {l : List α} {j : Nat} {x : α} : x ∈ l.drop j ↔ ∃ j', j ≤ j' ∧ l[j']? = some x := by
  rw [List.mem_iff_getElem?]
  constructor
  · rintro ⟨i, h⟩
    rw [List.getElem?_drop] at h
    exact ⟨j + i, by omega, h⟩
  · rintro ⟨j', h1, h2⟩
    refine ⟨j' - j, ?_⟩
    rw [List.getElem?_drop, ← h2]
    congr 1
    omega

theorem type_spec {env m call b} (g : Good env m call b) (r : Resolved env) (c : CType)
    (hc : (∃ k, c = .node k ∧ k < env.num) ∨ ∃ j l, c = .set j ∧ env.sets[j]? = some l) (s : RS) (hs : left env s < b) :
    ∃ s', rcbType env call c s = .ok s' ∧ Covers env m s s' (Stands env c) := by
  rcases hc with ⟨k, rfl, hk⟩ | ⟨j, l, rfl, _⟩
  · obtain ⟨s1, h1, c1⟩ := g k s hk hs
    exact ⟨s1, h1, c1.iff fun x => by simp [Stands, eq_comm]⟩
  · obtain ⟨s1, h1, c1⟩ := sets_spec g (env.sets.drop j) (fun l hl => r.sets l (List.mem_of_mem_drop hl)) s hs
    refine ⟨s1, h1, c1.iff fun x => ?_⟩
    constructor
    · rintro ⟨l, h, h'⟩
      obtain ⟨j', h2, h3⟩ := mem_drop.1 h
      exact .inr ⟨j, j', l, rfl, h2, h3, h'⟩
    · rintro (h | ⟨j0, j', l, h, h2, h3, h'⟩)
      · cases h
      · cases h
        exact ⟨l, mem_drop.2 ⟨j', h2, h3⟩, h'⟩

theorem children_spec {env m call b} (g : Good env m call b) (r : Resolved env) (cs : List CType)
    (hc : ∀ c, c ∈ cs → (∃ k, c = .node k ∧ k < env.num) ∨ ∃ j l, c = .set j ∧ env.sets[j]? = some l) (s : RS)
    (hs : left env s < b) :
    ∃ s', RCBchild env call cs s = .ok s' ∧ Covers env m s s' fun k => ∃ c, c ∈ cs ∧ Stands env c k := by
  induction cs generalizing s with
  | nil => exact ⟨s, rfl, Covers.refl.iff (by simp)⟩
  | cons c rest ih =>
    obtain ⟨s1, h1, c1⟩ := type_spec g r c (hc c List.mem_cons_self) s hs
    rw [RCBchild, h1, Res.bind_ok]
    cases hr : s1.reach with
    | true => exact ⟨s1, rfl, c1.stop hr fun k hk => ⟨c, List.mem_cons_self, hk⟩⟩
    | false =>
      obtain ⟨s2, h2, c2⟩ := ih (fun e he => hc e (List.mem_cons_of_mem _ he)) s1 (Nat.lt_of_le_of_lt c1.left hs)
      exact ⟨s2, h2, (c1.trans c2).iff (by simp)⟩

theorem stands_kids {env : Env} {i k : Nat} : (∃ c, c ∈ env.kids i ∧ Stands env c k) ↔ MayHaveChild env i k := by
  constructor
  · rintro ⟨c, h, rfl | ⟨j, j', l, rfl, h1, h2, h3⟩⟩
    · exact .inl h
    · exact .inr ⟨j, j', l, h, h1, h2, h3⟩
  · rintro (h | ⟨j, j', l, h, h1, h2, h3⟩)
    · exact ⟨_, h, .inl rfl⟩
    · exact ⟨_, h, .inr ⟨j, j', l, rfl, h1, h2, h3⟩⟩

theorem node_spec {env : Env} {m : Nat → Cell} (r : Resolved env) (fuel : Nat) : Good env m (rcbNode env m fuel) fuel := by
  induction fuel with
  | zero => intro i s _ h; omega
  | succ fuel ih =>
    intro i s hi hs
    rw [rcbNode]
    simp only [hi, decide_true]
    cases hv : s.visited i with
    | true =>
      refine ⟨s, rfl, ⟨fun _ h => h, fun h => h, fun _ v h1 h2 => ?_, fun h => .inl h, fun _ k hk => by rw [hk]; exact hv⟩⟩
      rw [h1] at h2; cases h2
    | false =>
      simp only []
      cases hm : (m i).handled with
      | true =>
        refine ⟨_, rfl, ⟨fun k hk => ?_, fun _ => rfl, (fun h => by cases h), fun _ => .inr ⟨i, i, rfl, hm, .inl rfl⟩, fun h => by cases h⟩⟩
        simp only [hk, ite_self]
      | false =>
        simp only []
        have hlt : left env { s with visited := fun k => if k = i then true else s.visited k } < left env s := by
          refine Verif.Graph.length_filter_lt' _ _ _ (fun k _ hk => ?_) (a := i) (by simpa using hi) (by simp [hv]) (by simp)
          by_cases hki : k = i
          · simp [hki] at hk
          · simpa [hki] using hk
        obtain ⟨s', h1, c⟩ := children_spec ih r (env.kids i) (r.kids i hi)
          { s with visited := fun k => if k = i then true else s.visited k } (by omega)
        have c := c.iff fun k => stands_kids
        refine ⟨s', h1, ⟨fun k hk => c.mono k (by simp only [hk, ite_self]), c.keep, fun hf v h2 h3 => ?_, fun ht => ?_, fun hf k hk => ?_⟩⟩
        · by_cases hvi : v = i
          · subst hvi
            exact ⟨hm, fun w hw => c.all hf w hw⟩
          · exact c.new hf v h2 (by simp only [hvi, ite_false]; exact h3)
        · rcases c.sound ht with h2 | ⟨k, t, h2, h3, h4⟩
          · exact .inl h2
          · refine .inr ⟨i, t, rfl, h3, .inr ?_⟩
            rcases h4 with rfl | h4
            · exact .edge h2
            · exact .step h2 h4
        · rw [hk]; exact c.mono i (by simp)

/-- The search from a node. -/
theorem search_spec {env : Env} {m : Nat → Cell} (r : Resolved env) {fuel : Nat} (hf : env.num < fuel) {i : Nat} (hi : i < env.num) :
    ∃ s, RCBchild env (rcbNode env m fuel) (env.kids i) { visited := fun _ => false, reach := false } = .ok s ∧
      (s.reach = true ↔ ∃ t, (m t).handled = true ∧ Path (MayHaveChild env) i t) := by
  obtain ⟨s, h1, c⟩ := children_spec (node_spec (m := m) r fuel) r (env.kids i) (r.kids i hi)
    { visited := fun _ => false, reach := false } (by
      refine Nat.lt_of_le_of_lt (List.length_filter_le _ _) ?_
      simpa using hf)
  have c := c.iff fun k => stands_kids
  refine ⟨s, h1, fun ht => ?_, fun ⟨t, h2, h3⟩ => ?_⟩
  · rcases c.sound ht with h | ⟨k, t, h2, h3, h4⟩
    · cases h
    · refine ⟨t, h3, ?_⟩
      rcases h4 with rfl | h4
      · exact .edge h2
      · exact .step h2 h4
  · cases hr : s.reach with
    | true => rfl
    | false =>
      exfalso
      have key : ∀ x y, Path (MayHaveChild env) x y → (∀ w, MayHaveChild env x w → s.visited w = true) → s.visited y = true := by
        intro x y h
        induction h with
        | edge h => exact fun hw => hw _ h
        | step h _ ih => exact fun hw => ih (c.new hr _ (hw _ h) rfl).2
      have hv := key i t h3 (c.all hr)
      rw [(c.new hr t hv rfl).1] at h2
      cases h2

/-- The row is right for the nodes in `D`. -/
structure Row (env : Env) (T : Nat → Prop) (m : Nat → Cell) (D : Nat → Prop) : Prop where
  user : ∀ i, m i = .user ↔ T i
  trav : ∀ i, m i = .trav → ∃ t, T t ∧ Path (MayHaveChild env) i t
  none : ∀ i, m i ≠ .notHandled
  done : ∀ i, D i → m i = .zero → ¬ ∃ t, T t ∧ Path (MayHaveChild env) i t

theorem Row.handled {env T m D} (v : Row env T m D) {i : Nat} :
    (∃ t, (m t).handled = true ∧ Path (MayHaveChild env) i t) ↔ ∃ t, T t ∧ Path (MayHaveChild env) i t := by
  constructor
  · rintro ⟨t, h, p⟩
    cases hm : m t with
    | zero => rw [hm] at h; cases h
    | notHandled => rw [hm] at h; cases h
    | user => exact ⟨t, (v.user t).1 hm, p⟩
    | trav =>
      obtain ⟨t', h1, p'⟩ := v.trav t hm
      exact ⟨t', h1, Verif.Graph.Path.trans p p'⟩
  · rintro ⟨t, h, p⟩
    exact ⟨t, by rw [(v.user t).2 h]; rfl, p⟩

theorem inode_spec {env : Env} {T : Nat → Prop} (r : Resolved env) {fuel : Nat} (hf : env.num < fuel) (l : List Nat)
    (hl : ∀ i, i ∈ l → i < env.num) (m : Nat → Cell) (s : RS) (D : Nat → Prop) (v : Row env T m D) :
    ∃ m' s', RCBinode env fuel l m s = .ok (m', s') ∧ Row env T m' fun i => D i ∨ i ∈ l := by
  induction l generalizing m s D with
  | nil => exact ⟨m, s, rfl, ⟨v.user, v.trav, v.none, fun i h => v.done i (h.elim id (by simp))⟩⟩
  | cons i rest ih =>
    have hi := hl i List.mem_cons_self
    have hr := fun k hk => hl k (List.mem_cons_of_mem i hk)
    have fin : ∀ m0 : Nat → Cell, ∀ s0, Row env T m0 (fun k => D k ∨ k = i) →
        ∃ m' s', RCBinode env fuel rest m0 s0 = .ok (m', s') ∧ Row env T m' fun k => D k ∨ k ∈ i :: rest := by
      intro m0 s0 v0
      obtain ⟨m', s', h1, v1⟩ := ih hr m0 s0 _ v0
      refine ⟨m', s', h1, ⟨v1.user, v1.trav, v1.none, fun k hk => v1.done k ?_⟩⟩
      rcases hk with hk | hk
      · exact .inl (.inl hk)
      · rcases List.mem_cons.1 hk with hk | hk
        · exact .inl (.inr hk)
        · exact .inr hk
    rw [RCBinode]
    simp only [hi, decide_true]
    by_cases hz : m i = .zero
    · simp only [hz, decide_true]
      obtain ⟨s1, h1, h2⟩ := search_spec (m := m) r hf hi
      rw [h1, Res.bind_ok]
      rw [v.handled] at h2
      cases hre : s1.reach with
      | true =>
        refine fin _ _ ⟨fun k => ?_, fun k hk => ?_, fun k => ?_, fun k hk hz' => ?_⟩
        · by_cases hki : k = i
          · simp only [hki, ite_true]
            refine ⟨(fun h => by cases h), fun h => ?_⟩
            rw [(v.user i).2 h] at hz; cases hz
          · simp only [hki, ite_false]; exact v.user k
        · by_cases hki : k = i
          · rw [hki]; exact h2.1 hre
          · simp only [hki, ite_false] at hk; exact v.trav k hk
        · by_cases hki : k = i
          · simp [hki]
          · simp only [hki, ite_false]; exact v.none k
        · by_cases hki : k = i
          · simp [hki] at hz'
          · simp only [hki, ite_false] at hz'
            exact v.done k (hk.elim id fun h => absurd h hki) hz'
      | false =>
        refine fin _ _ ⟨v.user, v.trav, v.none, fun k hk hz' => ?_⟩
        rcases hk with hk | rfl
        · exact v.done k hk hz'
        · intro h
          rw [h2.2 h] at hre; cases hre
    · simp only [hz, decide_false]
      refine fin _ _ ⟨v.user, v.trav, v.none, fun k hk hz' => ?_⟩
      rcases hk with hk | rfl
      · exact v.done k hk hz'
      · exact absurd hz' hz

theorem targets_spec {env : Env} (l : List Entry) (hl : ∀ e, e ∈ l → ∃ k, e = .node k ∧ k < env.num) (m : Nat → Cell) :
    ∃ m', rcbTargets env l m = .ok m' ∧ ∀ i, m' i = (if .node i ∈ l then .user else m i) := by
  induction l generalizing m with
  | nil => exact ⟨m, rfl, by simp⟩
  | cons e rest ih =>
    obtain ⟨k, rfl, hk⟩ := hl e List.mem_cons_self
    rw [rcbTargets]
    simp only [hk, decide_true]
    obtain ⟨m', h1, h2⟩ := ih (fun e he => hl e (List.mem_cons_of_mem _ he)) fun i => if i = k then .user else m i
    refine ⟨m', h1, fun i => ?_⟩
    rw [h2]
    by_cases hr : Entry.node i ∈ rest
    · simp [hr]
    · by_cases hik : i = k <;> simp [hr, hik]

theorem traversal_spec {env : Env} (r : Resolved env) {fuel : Nat} (hf : env.num < fuel) (l : List Entry) (hne : l ≠ [])
    (hl : ∀ e, e ∈ l → ∃ k, e = .node k ∧ k < env.num) (s : RS) :
    ∃ m s', RCBitraversal env fuel l s = .ok (m, s') ∧ Row env (fun i => .node i ∈ l) m fun i => i < env.num := by
  cases l with
  | nil => exact absurd rfl hne
  | cons e rest =>
    obtain ⟨m, h1, h2⟩ := targets_spec (e :: rest) hl fun _ => .zero
    have v : Row env (fun i => .node i ∈ e :: rest) m fun _ => False := by
      refine ⟨fun i => ?_, fun i h => ?_, fun i => ?_, fun i h => h.elim⟩
      · rw [h2]; split <;> simp_all
      · rw [h2] at h; split at h <;> cases h
      · rw [h2]; split <;> simp
    obtain ⟨m', s', h3, v'⟩ := inode_spec r hf env.nodes (fun i hi => (r.nodes i).1 hi) m { s with reach := false } _ v
    refine ⟨m', s', ?_, ⟨v'.user, v'.trav, v'.none, fun i hi => v'.done i (.inr ((r.nodes i).2 hi))⟩⟩
    rw [RCBitraversal, h1, Res.bind_ok, h3]

/-- What the row of a traversal is. -/
def IsRow (env : Env) (l : List Entry) (m : Nat → Cell) : Prop :=
  (l ≠ [] → Row env (fun i => .node i ∈ l) m fun i => i < env.num) ∧ (l = [] → ∀ i, i < env.num → m i = .user)

theorem ast_spec {env : Env} (r : Resolved env) {fuel : Nat} (hf : env.num < fuel) (n : Nat) (ts : List (Nat × List Entry))
    (hd : (ts.map (·.1)).Nodup) (hn : ∀ i l, (i, l) ∈ ts → i < n)
    (hl : ∀ i l, (i, l) ∈ ts → ∀ e, e ∈ l → ∃ k, e = .node k ∧ k < env.num) (rows : Nat → Option (Nat → Cell)) (s : RS) :
    ∃ rows', RCBast env fuel n ts rows s = .ok rows' ∧ (∀ i, i ∉ ts.map (·.1) → rows' i = rows i) ∧
      ∀ i l, (i, l) ∈ ts → ∃ m, rows' i = some m ∧ IsRow env l m := by
  induction ts generalizing rows s with
  | nil => exact ⟨rows, rfl, fun _ _ => rfl, fun i l h => by cases h⟩
  | cons x rest ih =>
    obtain ⟨i, l⟩ := x
    rw [List.map_cons, List.nodup_cons] at hd
    have h1 : ∃ m s', RCBitraversal env fuel l s = .ok (m, s') ∧ IsRow env l m := by
      cases hls : l with
      | nil => exact ⟨_, _, rfl, fun h => absurd rfl h, fun _ k hk => by simp [hk]⟩
      | cons e l' =>
        obtain ⟨m, s', h1, h2⟩ := traversal_spec r hf (e :: l') (by simp) (by rw [← hls]; exact hl i l List.mem_cons_self) s
        exact ⟨m, s', h1, fun _ => h2, fun h => by cases h⟩
    obtain ⟨m, s', h1, h2⟩ := h1
    obtain ⟨rows', h3, h4, h5⟩ := ih hd.2 (fun i l h => hn i l (List.mem_cons_of_mem _ h))
      (fun i l h => hl i l (List.mem_cons_of_mem _ h)) (fun k => if k = i then some m else rows k) s'
    refine ⟨rows', ?_, fun k hk => ?_, fun k l' hk => ?_⟩
    · rw [RCBast]
      simp only [hn i l List.mem_cons_self, decide_true, h1, Res.bind_ok]
      exact h3
    · rw [List.map_cons, List.mem_cons, not_or] at hk
      rw [h4 k hk.2]
      exact if_neg hk.1
    · rcases List.mem_cons.1 hk with hk | hk
      · cases hk
        refine ⟨m, ?_, h2⟩
        rw [h4 i hd.1]
        simp
      · exact h5 k l' hk

theorem table_spec (row : Nat → Cell) (l : List Nat) (p : Nat) :
    (DGNFTTinode row l)[p]? = l[p]?.map fun i => match row i with
      | .user => Handler.user i
      | .trav => .children
      | .zero => .nop
      | .notHandled => .nop := by
  induction l generalizing p with
  | nil => rfl
  | cons i rest ih =>
    cases p with
    | zero => rfl
    | succ p => rw [DGNFTTinode, List.getElem?_cons_succ, List.getElem?_cons_succ, ih]

theorem tables_spec {env : Env} {rows : Nat → Option (Nat → Cell)} (ts : List Nat) (h : ∀ i, i ∈ ts → ∃ m, rows i = some m) :
    ∃ l, DGTVitraversal env rows ts = .ok l ∧ l.length = ts.length ∧
      ∀ (k : Nat) i, ts[k]? = some i → ∃ m, rows i = some m ∧ l[k]? = some (.error :: DGNFTTinode m env.nodes) := by
  induction ts with
  | nil => exact ⟨[], rfl, rfl, fun k i h => by cases h⟩
  | cons x rest ih =>
    obtain ⟨l, h1, h2, h3⟩ := ih fun i hi => h i (List.mem_cons_of_mem _ hi)
    obtain ⟨m, hm⟩ := h x List.mem_cons_self
    refine ⟨_, by rw [DGTVitraversal, hm]; simp only [h1, Res.bind_ok]; rfl, by simp [h2], fun k i hk => ?_⟩
    cases k with
    | zero =>
      simp only [List.getElem?_cons_zero, Option.some.injEq] at hk
      subst hk
      exact ⟨m, hm, rfl⟩
    | succ k => exact h3 k i hk

end Verif.Reach
