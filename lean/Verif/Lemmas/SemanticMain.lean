import Verif.Lemmas.SemanticSpec

/-!
# Lemmas about the phase `semantic`: the actions one after the other
-/

namespace Verif.Semantic
open Verif.Str Verif.Ids Verif.Grammar
open Verif.Spec.Str (lowerB upperB SameName)
open Verif.Spec.Ids Verif.Spec.CheckExist Verif.Spec.Semantic
open Verif.Propagate (Target Entry)
open Verif.Spec.ProductRules
open Res

theorem checks_le {a b : Nat} (h : a ≤ b) (addr : Loc → Nat) (A : Parse.Ast) : Le (checks addr a A) (checks addr b A) := by
  unfold checks
  refine Le.bind (Le.refl _) fun tab => ?_
  refine Le.bind (Le.refl _) fun o => ?_
  refine Le.bind (Le.refl _) fun s1 => ?_
  refine Le.bind (Le.refl _) fun _ => ?_
  refine Le.bind (Unwrap.USEast_le tab h _ _) fun _ => ?_
  exact Le.refl _

theorem stop_zero : stop 0 = .ok () := rfl

theorem stop_pos {n : Nat} (h : n ≠ 0) : stop n = .abort "action error" := by
  cases n with
  | zero => exact absurd rfl h
  | succ n => rfl

/-- What the propagation leaves. -/
theorem propagated_ok {A tab q table trees} (h : Right A tab) (hf : Filled (progOf A) q) (ht : Trees A trees)
    (htab : ∀ i, i < A.nodesets.length → (table i).Nodup ∧ ∀ k, k ∈ table i ↔ Spec.Graph.Path (Names A) i k) :
    ∃ s, Propagate.PRAast (praEnv A tab table trees) (initOf A q) = .ok s ∧ (s.errors = 0 →
      (∀ t, Spec.Propagate.Distinct (s.attrs t)) ∧
      (∀ k, k < A.nodes.length → (∀ a, NodeAttr A k a → ∃ b ∈ s.attrs (.node k), Like a b) ∧
        ∀ b ∈ s.attrs (.node k), ∃ a, NodeAttr A k a ∧ Like a b) ∧
      (∀ k, k < A.nodesets.length → (∀ a, SetAttr A k a → ∃ b ∈ s.attrs (.set k), Like a b) ∧
        ∀ b ∈ s.attrs (.set k), ∃ a, SetAttr A k a ∧ Like a b)) := by
  have hs := start_of h hf ht fun i hi => (htab i hi).1
  obtain ⟨s, h1, h2, h3, h4⟩ := Props.C26_members _ _ hs
  refine ⟨s, h1, fun he => ?_⟩
  obtain ⟨h5, h6, _⟩ := h4 he
  have sig : ∀ {a : Parse.Attr} {b c}, Like a b → Spec.Propagate.SameSignature b c → Like a c := fun h1 h2 =>
    ⟨h2.name.trans h1.name, h2.inh.trans h1.inh, h2.syn.trans h1.syn⟩
  have own : ∀ {i : Nat} {a : Propagate.Attr}, i < A.nodesets.length → a ∈ initOf A q (.set i) → ∃ s x, A.nodesets[i]? = some s ∧
      x ∈ s.attrs ∧ Like x a := by
    intro i a hi ha
    have hs := List.getElem?_eq_getElem hi
    obtain ⟨x, hx, hl, _⟩ := (init_set hf hs).mem_right ha
    exact ⟨_, x, hs, hx, hl⟩
  have pro : ∀ {x : Parse.Attr} {a : Propagate.Attr}, Like x a → Like x { a with propagated := true } := fun h => ⟨h.name, h.inh, h.syn⟩
  refine ⟨h6, fun k hk => ⟨fun a ha => ?_, fun b hb => ?_⟩, fun k hk => ⟨fun a ha => ?_, fun b hb => ?_⟩⟩
  · cases ha with
    | own g1 g2 =>
      obtain ⟨b, hb, hl, _⟩ := (init_node hf g1).mem_left g2
      exact ⟨b, h2 _ _ hb, hl⟩
    | @member i _ g1 g2 g3 =>
      obtain ⟨b, hb, hl, _⟩ := (init_set hf g1).mem_left g2
      have hi := (List.getElem?_eq_some_iff.1 g1).1
      obtain ⟨c, hc, hsig⟩ := h5 (.node k) i b ⟨hi, hb, (members_iff h ht hi k).2 g3⟩
      exact ⟨c, hc, sig hl hsig⟩
  · have hn := List.getElem?_eq_getElem hk
    rcases h3 _ b hb with g | ⟨i, a, ⟨g1, g2, g3⟩, rfl⟩
    · obtain ⟨x, hx, hl, _⟩ := (init_node hf hn).mem_right g
      exact ⟨x, .own hn hx, hl⟩
    · obtain ⟨s', x, f1, f2, f3⟩ := own g1 g2
      exact ⟨x, .member f1 f2 ((members_iff h ht g1 k).1 g3), pro f3⟩
  · cases ha with
    | own g1 g2 =>
      obtain ⟨b, hb, hl, _⟩ := (init_set hf g1).mem_left g2
      exact ⟨b, h2 _ _ hb, hl⟩
    | @named i _ g1 g2 g3 =>
      obtain ⟨b, hb, hl, _⟩ := (init_set hf g1).mem_left g2
      have hi := (List.getElem?_eq_some_iff.1 g1).1
      obtain ⟨c, hc, hsig⟩ := h5 (.set k) i b ⟨hi, hb, ((htab i hi).2 k).2 g3⟩
      exact ⟨c, hc, sig hl hsig⟩
  · have hn := List.getElem?_eq_getElem hk
    rcases h3 _ b hb with g | ⟨i, a, ⟨g1, g2, g3⟩, rfl⟩
    · obtain ⟨x, hx, hl, _⟩ := (init_set hf hn).mem_right g
      exact ⟨x, .own hn hx, hl⟩
    · obtain ⟨s', x, f1, f2, f3⟩ := own g1 g2
      exact ⟨x, .named f1 f2 (((htab i g1).2 k).1 g3), pro f3⟩

theorem type_name {A : Parse.Ast} {a : Parse.Attr} (h : Spec.CheckExist.AttrOk (progOf A) (attrOf a)) (ht : a.type = .link_or_enum)
    {r : Parse.Name} (hr : r ∈ a.ref) : TypeName A r := by
  have hr' : idOf r ∈ (attrOf a).ref := by
    simp only [Option.mem_def] at hr
    simp [attrOf, hr]
  rcases h (by simp [attrOf, typeOf, ht]) _ hr' with h | h | h
  · obtain ⟨k, n, h1, h2⟩ := denotes_node h
    exact Or.inl ⟨n, List.mem_of_getElem? h1, h2⟩
  · obtain ⟨k, n, h1, h2⟩ := denotes_set h
    exact Or.inr (Or.inl ⟨n, List.mem_of_getElem? h1, h2⟩)
  · obtain ⟨n, h1, h2⟩ := denotes_enum h
    exact Or.inr (Or.inr ⟨n, h1, h2⟩)

/-- What is checked of attributes. -/
theorem rules_ok {A tab q trees} {s1 : ChildTable.NS} (h : Right A tab) (hf : Filled (progOf A) q) (ht : Trees A trees)
    (htab : ∀ i, i < A.nodesets.length → (s1.table i).Nodup ∧ ∀ k, k ∈ s1.table i ↔ Spec.Graph.Path (Names A) i k)
    (hill : ∀ (i : Nat) x, A.nodesets[i]? = some x → (s1.illegal i = true ↔ Narrows x.expr)) {s : Propagate.PState}
    (hs : Propagate.PRAast (praEnv A tab s1.table trees) (initOf A q) = .ok s) (he : s.errors = 0)
    (hk : ∀ (k : Nat) n, A.nodes[k]? = some n → ∀ b ∈ s.attrs (.node k), ∀ c ∈ n.children, b.name ≠ code (idOf c.name).lwr)
    (hn : ∀ k, k < A.nodes.length → ∀ a, NodeAttr A k a → ∃ b ∈ s.attrs (.node k), Like a b)
    (hn' : ∀ k, k < A.nodesets.length → ∀ a, SetAttr A k a → ∃ b ∈ s.attrs (.set k), Like a b)
    (hc : CheckAttrs.CHAstart (declsOf A s1.illegal s.attrs) = 0) : Rules A := by
  have hst := start_of h hf ht fun i hi => (htab i hi).1
  obtain ⟨s', h1, h2, h3⟩ := Props.C26_redeclares _ _ hst
  rw [hs] at h1
  cases h1
  have h3 := h3 he
  have hfirst := (Props.C45_first_partial _).1 hc
  have lt : ∀ {α : Type} {l : List α} {k : Nat} {x : α}, l[k]? = some x → k < l.length := fun h => (List.getElem?_eq_some_iff.1 h).1
  have nodeTypes : ∀ n ∈ A.nodes, ∀ a ∈ n.attrs, Spec.CheckExist.AttrOk (progOf A) (attrOf a) := fun n hn a ha =>
    (h.sound.fields ⟨idOf n.name, n.root, n.children.map childOf, n.attrs.map attrOf⟩
      (List.mem_map.2 ⟨n, hn, rfl⟩)).2.1 _ (List.mem_map.2 ⟨a, ha, rfl⟩)
  have setTypes : ∀ n ∈ A.nodesets, ∀ a ∈ n.attrs, Spec.CheckExist.AttrOk (progOf A) (attrOf a) := fun n hn a ha =>
    (h.sound.setAttrs ⟨idOf n.name, some (exprOf n.expr), n.attrs.map attrOf⟩
      (List.mem_map.2 ⟨n, hn, rfl⟩)).2 _ (List.mem_map.2 ⟨a, ha, rfl⟩)
  have plain : ∀ {set root a b}, Like a b → Kept (progOf A) a b → b.propagated = false → Spec.CheckAttrs.AttrOk set root b → Plain a := by
    intro set root a b hl hk hp ho hor
    constructor
    · cases e : a.ctor with
      | false => rfl
      | true =>
        have := ho.ctor hp (by rw [hk.ctor, e])
        rw [hl.inh, hl.syn] at this
        simp_all
    · refine Classical.byContradiction fun hne => ?_
      have := ho.lifetimes hp (by rw [hk.life]; exact hne)
      rw [hl.inh, hl.syn] at this
      simp_all
  refine ⟨fun n hn a ha ht r hr => type_name (nodeTypes n hn a ha) ht hr, fun n hn a ha ht r hr => type_name (setTypes n hn a ha) ht hr,
    ?_, ?_, ?_, ?_, ?_, ?_⟩
  · intro k n a hkn ha c hcn hsame
    obtain ⟨b, hb, hl⟩ := hn k (lt hkn) a ha
    exact hk k n hkn b hb c hcn (by rw [hl.name]; exact lwr_code.2 hsame)
  · intro i k x n a b hx hkn hm ha hb hsame
    obtain ⟨a', ha', hla, _⟩ := (init_set hf hx).mem_left ha
    obtain ⟨b', hb', hlb, _, hkb⟩ := (init_node hf hkn).mem_left hb
    obtain ⟨_, hr⟩ := h3 (.node k) i a' b' ⟨lt hx, ha', (members_iff h ht (lt hx) k).2 hm⟩ hb'
      (by rw [hla.name, hlb.name]; exact lwr_code.2 hsame)
    exact ⟨by rw [← hkb.ctor]; exact hr.ctor, ⟨by rw [← hla.inh]; exact hr.inh, by rw [← hla.syn]; exact hr.syn⟩,
      by rw [← hlb.inh, hr.same.inh]; exact hr.inh, by rw [← hlb.syn, hr.same.syn]; exact hr.syn⟩
  · intro i j x t a b hx hj hp ha hb hsame
    obtain ⟨a', ha', hla, _⟩ := (init_set hf hx).mem_left ha
    obtain ⟨b', hb', hlb, _⟩ := (init_set hf hj).mem_left hb
    obtain ⟨⟨m, hm⟩, _⟩ := h3 (.set j) i a' b' ⟨lt hx, ha', ((htab i (lt hx)).2 j).2 hp⟩ hb'
      (by rw [hla.name, hlb.name]; exact lwr_code.2 hsame)
    cases hm
  · intro j x a l hx hal halone
    have hp := init_set hf hx
    obtain ⟨new, g1, g2⟩ := h2 (.set j)
    have hnew : new = [] := by
      cases new with
      | nil => rfl
      | cons b new =>
        obtain ⟨i, c, ⟨f1, f2, f3⟩, _⟩ := g2 b List.mem_cons_self
        have hi := List.getElem?_eq_getElem f1
        obtain ⟨d, hd, _⟩ := (init_set hf hi).mem_right f2
        rw [halone i _ hi (((htab i f1).2 j).1 f3)] at hd
        cases hd
    rw [hnew, List.nil_append] at g1
    rw [hal] at hp
    generalize hI : initOf A q (.set j) = I at hp g1
    cases hp with
    | @cons _ b _ m hab _ =>
      obtain ⟨hl, hpr, hke⟩ := hab
      have ho := hfirst.sets (s1.illegal j) b m (by
        rw [declsOf]
        refine List.mem_of_getElem? (i := j) ?_
        simp [hx, g1])
      refine ⟨?_, plain hl hke hpr ho⟩
      rw [← hke.ctor]
      exact ho.set hpr rfl
  · intro j x a l hx hal halone
    have hp := init_node hf hx
    obtain ⟨new, g1, g2⟩ := h2 (.node j)
    have hnew : new = [] := by
      cases new with
      | nil => rfl
      | cons b new =>
        obtain ⟨i, c, ⟨f1, f2, f3⟩, _⟩ := g2 b List.mem_cons_self
        have hi := List.getElem?_eq_getElem f1
        obtain ⟨d, hd, _⟩ := (init_set hf hi).mem_right f2
        rw [halone i _ hi ((members_iff h ht f1 j).1 f3)] at hd
        cases hd
    rw [hnew, List.nil_append] at g1
    rw [hal] at hp
    generalize hI : initOf A q (.node j) = I at hp g1
    cases hp with
    | @cons _ b _ m hab _ =>
      obtain ⟨hl, hpr, hke⟩ := hab
      have ho := hfirst.nodes x.root b m (by
        rw [declsOf]
        refine List.mem_of_getElem? (i := j) ?_
        simp [hx, g1])
      refine ⟨fun hr => ?_, plain hl hke hpr ho⟩
      rw [← hl.inh]
      exact ho.root hr
  · intro j x a hx ha hnar
    obtain ⟨b, hb, _⟩ := hn' j (lt hx) a ha
    have := hfirst.expr (s1.illegal j) (s.attrs (.set j)) (by
      rw [declsOf]
      refine List.mem_of_getElem? (i := j) ?_
      simp [hx]) (List.ne_nil_of_mem hb)
    rw [(hill j x hx).2 hnar] at this
    cases this

/-- What later phases read, in terms of the description. -/
structure Facts (A : Parse.Ast) (o : Out) : Prop where
  right : Right A o.tab
  start : ∀ i, o.start = some i → ∃ p, A.phases[i]? = some p ∧ p.start = true
  noStart : o.start = none → ∀ p ∈ A.phases, p.start = false
  nodeKept : ∀ k, k < A.nodes.length → ∀ b ∈ o.attrs (.node k), ∃ a, NodeAttr A k a ∧ Like a b ∧ Kept (progOf A) a b
  setKept : ∀ k, k < A.nodesets.length → ∀ b ∈ o.attrs (.set k), ∃ a, SetAttr A k a ∧ Like a b ∧ Kept (progOf A) a b
  ownNode : ∀ (k : Nat) n, A.nodes[k]? = some n → ∀ a ∈ n.attrs, ∃ b ∈ o.attrs (.node k), Like a b ∧ Kept (progOf A) a b
  ownSet : ∀ (k : Nat) s, A.nodesets[k]? = some s → ∀ a ∈ s.attrs, ∃ b ∈ o.attrs (.set k), Like a b ∧ Kept (progOf A) a b
  kids : ∀ (k : Nat) n, A.nodes[k]? = some n → ∀ b ∈ o.attrs (.node k), ∀ c ∈ n.children, b.name ≠ code (idOf c.name).lwr
  rules : o.errors = 0 → Rules A

/-- The attributes after the propagation. -/
theorem facts_ok {A tab q table trees} (h : Right A tab) (hf : Filled (progOf A) q) (ht : Trees A trees)
    (htab : ∀ i, i < A.nodesets.length → (table i).Nodup ∧ ∀ k, k ∈ table i ↔ Spec.Graph.Path (Names A) i k) {s : Propagate.PState}
    (hs : Propagate.PRAast (praEnv A tab table trees) (initOf A q) = .ok s) (he : s.errors = 0)
    {o1 : CheckExist.Out} (hm : Props.Marked (progOf A) o1) {S : Induce.Spec} {n : Nat} {members : Nat → List Entry}
    (hr : (∀ (k : Nat) n, A.nodes[k]? = some n → ∀ b ∈ s.attrs (.node k), ∀ c ∈ n.children, b.name ≠ code (idOf c.name).lwr) →
      n = 0 → Rules A) :
    Facts A ⟨S, n, tab, o1.start, s.attrs, members⟩ := by
  have hst := start_of h hf ht fun i hi => (htab i hi).1
  obtain ⟨s', h1, h2, h3, h4⟩ := Props.C26_members _ _ hst
  rw [hs] at h1
  cases h1
  obtain ⟨_, _, h7⟩ := h4 he
  have own : ∀ {i : Nat} {a : Propagate.Attr}, i < A.nodesets.length → a ∈ initOf A q (.set i) → ∃ s x, A.nodesets[i]? = some s ∧
      x ∈ s.attrs ∧ Like x a ∧ Kept (progOf A) x a := by
    intro i a hi ha
    have hs := List.getElem?_eq_getElem hi
    obtain ⟨x, hx, hl, _, hk⟩ := (init_set hf hs).mem_right ha
    exact ⟨_, x, hs, hx, hl, hk⟩
  have hkids : ∀ (k : Nat) n, A.nodes[k]? = some n → ∀ b ∈ s.attrs (.node k), ∀ c ∈ n.children, b.name ≠ code (idOf c.name).lwr := by
    intro k n hn b hb c hc e
    rcases h7 k b hb with g | g
    · obtain ⟨x, hx, hl, _⟩ := (init_node hf hn).mem_right g
      rw [hl.name, lwr_code] at e
      have := (h.sound.fields ⟨idOf n.name, n.root, n.children.map childOf, n.attrs.map attrOf⟩
        (List.mem_map.2 ⟨n, List.mem_of_getElem? hn, rfl⟩)).1
      rw [Spec.CheckExist.Distinct, List.pairwise_append] at this
      exact this.2.2 (idOf x.name) (List.mem_map.2 ⟨attrOf x, List.mem_map.2 ⟨x, hx, rfl⟩, rfl⟩)
        (idOf c.name) (List.mem_map.2 ⟨childOf c, List.mem_map.2 ⟨c, hc, rfl⟩, rfl⟩) e
    · refine g ?_
      simp only [praEnv, hn]
      exact List.mem_map.2 ⟨c, hc, e.symm⟩
  refine ⟨h, ?_, ?_, ?_, ?_, ?_, ?_, hkids, hr hkids⟩
  · intro i hi
    obtain ⟨n, g1, g2⟩ := hm.2.2.1 i hi
    simp only [progOf, List.getElem?_map, Option.map_eq_some_iff] at g1
    obtain ⟨p, g3, rfl⟩ := g1
    exact ⟨p, g3, g2⟩
  · intro hi p hp
    exact hm.2.2.2 hi ⟨idOf p.name, p.uid.map idOf, p.start, p.actions.map idOf⟩ (List.mem_map.2 ⟨p, hp, rfl⟩)
  · intro k hk b hb
    have hn := List.getElem?_eq_getElem hk
    rcases h3 _ b hb with g | ⟨i, a, ⟨g1, g2, g3⟩, rfl⟩
    · obtain ⟨x, hx, hl, _, hk⟩ := (init_node hf hn).mem_right g
      exact ⟨x, .own hn hx, hl, hk⟩
    · obtain ⟨s', x, f1, f2, f3, f4⟩ := own g1 g2
      exact ⟨x, .member f1 f2 ((members_iff h ht g1 k).1 g3), ⟨f3.name, f3.inh, f3.syn⟩, kept_copy f4⟩
  · intro k hk b hb
    have hn := List.getElem?_eq_getElem hk
    rcases h3 _ b hb with g | ⟨i, a, ⟨g1, g2, g3⟩, rfl⟩
    · obtain ⟨x, hx, hl, _, hk⟩ := (init_set hf hn).mem_right g
      exact ⟨x, .own hn hx, hl, hk⟩
    · obtain ⟨s', x, f1, f2, f3, f4⟩ := own g1 g2
      exact ⟨x, .named f1 f2 (((htab i g1).2 k).1 g3), ⟨f3.name, f3.inh, f3.syn⟩, kept_copy f4⟩
  · intro k n hn a ha
    obtain ⟨b, hb, hl, _, hk⟩ := (init_node hf hn).mem_left ha
    exact ⟨b, h2 _ _ hb, hl, hk⟩
  · intro k n hn a ha
    obtain ⟨b, hb, hl, _, hk⟩ := (init_set hf hn).mem_left ha
    exact ⟨b, h2 _ _ hb, hl, hk⟩

theorem refs_all (env : ProductRules.Env) : allRefs env = env.nodes.flatMap fun nd => (refs nd).map fun r => (nd, r) := rfl

/-- The members of nodesets have their attributes, if the check of attributes reports nothing (C44). -/
theorem same_ok {A tab q s1 trees s2} (h : Right A tab) (hf : Filled (progOf A) q) (ht : Trees A trees)
    (h1 : ChildTable.NCTast (A.nodesets.map fun s => shapeOf tab (exprOf s.expr)) A.nodesets.length = .ok s1) (e1 : s1.errors = 0)
    (htab : ∀ i, i < A.nodesets.length → (s1.table i).Nodup)
    (h2 : Propagate.PRAast (praEnv A tab s1.table trees) (initOf A q) = .ok s2) (e2 : s2.errors = 0)
    (e3 : CheckAttrs.CHAstart (declsOf A s1.illegal s2.attrs) = 0) :
    ∀ i, i < A.nodesets.length → ∀ b ∈ s2.attrs (.set i), ∀ k, Member A i k → ∃ c ∈ s2.attrs (.node k), c.name = b.name ∧
      c.inh = b.inh ∧ c.syn = b.syn ∧ c.type = b.type := by
  have el : (nsList A tab).length = A.nodesets.length := by simp [nsList]
  have es : (A.nodesets.map fun s => shapeOf tab (exprOf s.expr)) = (nsList A tab).map (·.shape) := by
    rw [nsList, List.map_map]
    exact List.map_congr_left fun s hs => (shape_ns h (exprOf_wf _) (h.expr hs)).symm
  have key := Props.C44_members (nsList A tab) (Member A) (membership_of h ht)
    (by
      intro e he
      obtain ⟨s, hs, rfl⟩ := List.mem_map.1 he
      rw [el]
      exact resolved_ns h (exprOf_wf _) (h.expr hs))
    s1 (by rw [← es, el]; exact h1) e1 (praEnv A tab s1.table trees) (initOf A q) (start_of h hf ht htab)
    (by rw [el]; rfl) (fun i _ => rfl) (fun i m hi => members_iff h ht (by rw [el] at hi; exact hi) m) s2 h2 e2
    (declsOf A s1.illegal s2.attrs)
    (by
      rw [el, declsOf]
      apply List.ext_getElem?
      intro i
      simp only [List.getElem?_mapIdx, List.getElem?_map]
      by_cases hi : i < A.nodesets.length
      · simp [hi]
      · simp [hi]) e3
  intro i hi b hb k hk
  obtain ⟨c, hc, hs⟩ := key i (by rw [el]; exact hi) b hb k hk
  exact ⟨c, hc, hs.name, hs.inh, hs.syn, hs.type⟩

/-- The actions after the check of references. -/
theorem after_exist {addr : Loc → Nat} {A : Parse.Ast} (ha : Apart addr) (he : Earlier A) {tab} (h : Right A tab)
    {o1 : CheckExist.Out} (hf : Filled (progOf A) o1.prog) (hb : BSTast (progOf A).ids = .ok tab)
    (hc : CheckExist.CEXast tab (progOf A) = .ok o1) (hm : Props.Marked (progOf A) o1) :
    ∃ R N, (∀ fuel, N ≤ fuel → checks addr fuel A = R) ∧
      (R = .abort "action error" ∨ ∃ o, R = .ok o ∧ Facts A o ∧
        (o.errors = 0 → World addr A o.attrs (cprEnv A o.tab o.attrs) o.members o.spec)) := by
  obtain ⟨s1, h1, t1, till⟩ := tables_ok h
  by_cases e1 : s1.errors = 0
  case neg =>
    refine ⟨.abort "action error", 0, fun fuel _ => ?_, Or.inl rfl⟩
    unfold checks
    simp only [hb, hc, h1, stop_pos e1, Res.bind_ok, Res.bind_abort]
  have htab := t1 e1
  obtain ⟨st, trees, N, h2, h3, h4⟩ := unwrap_ok h he
  obtain ⟨s2, h5, t2⟩ := propagated_ok h hf h4 htab
  by_cases e2 : s2.errors = 0
  case neg =>
    refine ⟨.abort "action error", N, fun fuel hN => ?_, Or.inl rfl⟩
    obtain ⟨qs, hq⟩ := h2 fuel hN
    rw [travs] at hq
    unfold checks
    simp only [hb, hc, h1, e1, stop_zero, hq, h3, h5, stop_pos e2, Res.bind_ok, Res.bind_abort]
  obtain ⟨d1, d2, d3⟩ := t2 e2
  by_cases e3 : ((declsOf A s1.illegal s2.attrs).sets.filter fun x => ctorStops x.2).length = 0
  case neg =>
    refine ⟨.abort "action error", N, fun fuel hN => ?_, Or.inl rfl⟩
    obtain ⟨qs, hq⟩ := h2 fuel hN
    rw [travs] at hq
    unfold checks
    simp only [hb, hc, h1, e1, stop_zero, hq, h3, h5, e2, stop_pos e3, Res.bind_ok, Res.bind_abort]
  have hn := named_of h d1
  have hty := typed_of (attrs := s2.attrs) h
  obtain ⟨s3, h6, t3, t4⟩ := Props.C27_equations (cprEnv A tab s2.attrs) hn hty
  by_cases e4 : s3.errors = 0
  case neg =>
    refine ⟨.abort "action error", N, fun fuel hN => ?_, Or.inl rfl⟩
    obtain ⟨qs, hq⟩ := h2 fuel hN
    rw [travs] at hq
    unfold checks
    simp only [hb, hc, h1, e1, stop_zero, hq, h3, h5, e2, e3, h6, stop_pos e4, Res.bind_ok, Res.bind_abort]
  have hok := t3.1 e4
  obtain ⟨nodes, h7, h8, h9⟩ := iNodes_ok (addr := addr) (env := cprEnv A tab s2.attrs) (i := 0) (by rw [← refs_all]; exact t4)
    fun nd hnd => ⟨hty nd hnd, hok nd hnd⟩
  have hlen : nodes.length = A.nodes.length := by rw [h8, cprEnv]; simp
  have hmem : ∀ j, j < A.nodesets.length → ∀ x ∈ (praEnv A tab s1.table trees).members j, ∃ k, x = Entry.node k ∧ k < nodes.length := by
    intro j hj x hx
    have hst := start_of h hf h4 fun i hi => (htab i hi).1
    obtain ⟨k, rfl⟩ := hst.nodes j x hj hx
    exact ⟨k, rfl, by rw [hlen]; exact member_lt ((members_iff h h4 hj k).1 hx)⟩
  obtain ⟨sets, h10, h11, h12⟩ := iSets_ok (addr := addr) (nodes := nodes) (members := (praEnv A tab s1.table trees).members)
    (ls := (cprEnv A tab s2.attrs).sets) (i := 0) (by
      intro j _ hj
      refine hmem j ?_
      simpa [cprEnv] using hj)
  refine ⟨.ok ⟨⟨nodes, sets⟩, CheckAttrs.CHAstart (declsOf A s1.illegal s2.attrs), tab, o1.start, s2.attrs,
    (praEnv A tab s1.table trees).members⟩, N, fun fuel hN => ?_, Or.inr ⟨_, rfl, facts_ok h hf h4 htab h5 e2 hm ?_, fun e5 => ?_⟩⟩
  · obtain ⟨qs, hq⟩ := h2 fuel hN
    rw [travs] at hq
    unfold checks
    simp only [hb, hc, h1, e1, stop_zero, hq, h3, h5, e2, e3, h6, e4, h7, h10, Res.bind_ok]
  · exact fun hk e5 => rules_ok h hf h4 htab till h5 e2 hk (fun k hk => (d2 k hk).1) (fun k hk => (d3 k hk).1) e5
  · refine ⟨ha, ⟨tab, h, rfl⟩, hn, hty, hok, d2, d3,
      same_ok h hf h4 h1 e1 (fun i hi => (htab i hi).1) h5 e2 e5, ?_, ⟨h8, ?_⟩, h11, ?_⟩
    · intro i hi
      have hst := start_of h hf h4 fun i hi => (htab i hi).1
      exact ⟨hst.members i hi, fun k => members_iff (table := s1.table) h h4 hi k⟩
    · intro k nd hk
      obtain ⟨x, g1, g2⟩ := h9 k nd hk
      rw [Nat.zero_add] at g2
      exact ⟨x, g1, g2⟩
    · intro k l hk
      obtain ⟨x, g1, g2⟩ := h12 k l hk
      rw [Nat.zero_add] at g2
      exact ⟨x, g1, g2⟩

/-- What the actions before the scheduler do. -/
theorem checks_run {addr : Loc → Nat} {A : Parse.Ast} (ha : Apart addr) (hp : TypesNamed A) (he : Earlier A)
    (hf : ¬ Clash (functions (progOf A).ids)) :
    ∃ R N, (∀ fuel, N ≤ fuel → checks addr fuel A = R) ∧
      (R = .abort "CTIabortOnError" ∨ R = .abort "action error" ∨
        ∃ o, R = .ok o ∧ Facts A o ∧ (o.errors = 0 → World addr A o.attrs (cprEnv A o.tab o.attrs) o.members o.spec)) := by
  obtain ⟨b1, b2⟩ := Props.C24_reports_partial (progOf A).ids (ids_wf A) hf
  by_cases hc : Clash (Props.names (progOf A).ids)
  · refine ⟨_, 0, fun fuel _ => ?_, Or.inl rfl⟩
    unfold checks
    simp only [b1 hc, Res.bind_abort]
  · obtain ⟨tab, hb⟩ := b2 hc
    obtain ⟨c1, c2⟩ := Props.check_core (progOf A) (prog_wf A) (parsed_of hp) tab hb
    by_cases hs : Sound (progOf A)
    · obtain ⟨o1, ho, hfi, hm⟩ := c1 hs
      obtain ⟨R, N, h1, h2⟩ := after_exist ha he ⟨hb, table_right hb, hs⟩ hfi hb ho hm
      exact ⟨R, N, h1, Or.inr h2⟩
    · refine ⟨_, 0, fun fuel _ => ?_, Or.inl rfl⟩
      unfold checks
      simp only [hb, c2 hs, Res.bind_ok, Res.bind_abort]

/-- If they end without error. -/
theorem checks_facts {addr : Loc → Nat} {A : Parse.Ast} (ha : Apart addr) (hp : TypesNamed A) (he : Earlier A) {fuel : Nat} {o : Out}
    (h : checks addr fuel A = .ok o) : Facts A o ∧ (o.errors = 0 → World addr A o.attrs (cprEnv A o.tab o.attrs) o.members o.spec) := by
  have h' := h
  unfold checks at h'
  obtain ⟨tab, hb, h'⟩ := Res.bind_eq_ok.1 h'
  obtain ⟨o1, hc, h'⟩ := Res.bind_eq_ok.1 h'
  obtain ⟨hs, hfi, hm⟩ := exist_ok hp hb hc
  obtain ⟨R, N, h1, h2⟩ := after_exist ha he ⟨hb, table_right hb, hs⟩ hfi hb hc hm
  have h3 := (checks_le (Nat.le_max_left fuel N) addr A).ok h
  rw [h1 _ (Nat.le_max_right fuel N)] at h3
  rcases h2 with h2 | ⟨o', h2, h4⟩
  · rw [h3] at h2; cases h2
  · rw [h3] at h2
    cases h2
    exact h4

theorem checks_world {addr : Loc → Nat} {A : Parse.Ast} (ha : Apart addr) (hp : TypesNamed A) (he : Earlier A) {fuel : Nat} {o : Out}
    (h : checks addr fuel A = .ok o) (h0 : o.errors = 0) : ∃ attrs env members, World addr A attrs env members o.spec :=
  ⟨_, _, _, (checks_facts ha hp he h).2 h0⟩

end Verif.Semantic
