import Verif.Lemmas.TargetsBack
import Verif.Lemmas.TargetsParse
import Verif.Lemmas.TargetsWalk
import Verif.Props.Compiled
import Verif.Props.Trav

/-!
# Property C67: traversals go to the nodes that the description says

The phase `semantic`, the resolution of set expressions, reachability, the generators of dispatch tables and the traversal core together,
for all descriptions.
-/

namespace Verif.Props
open Verif.Str Verif.Ids Verif.Trav Verif.Tables Verif.Targets Verif.Semantic Verif.Spec.Targets
open Verif.Parse (Yyparse T)
open Verif.Spec.Semantic (TypesNamed Earlier Means)
open Verif.Spec.Compiled (Free Null)

/-- C67, numbers: the parser numbers nodes and traversals. -/
theorem C67_numbered {ts : List T} {s : Parse.St} (h : Yyparse ts (.ok s)) : Numbered s.ast := by
  cases h with
  | accept _ h => exact entries_numbered h start_numbered

/-- C67, tables: for an accepted description, the generators end with tables, and what `TRAVdo` finds there under the enumerators of a
traversal and a node type is the function of the user if the traversal is for the node, and else something that goes through the node if
anything below can be of a type that the traversal is for.

Missing: a traversal for an empty set of nodes (`C67_empty_false`), descriptions that do not compile (C66), and nodesets that name a
nodeset declared later (C23). -/
theorem C67_targets_partial {addr : Loc → Nat} {fuel : Nat} {A : Parse.Ast} {o : Semantic.Out} (ha : Spec.Semantic.Apart addr)
    (hp : TypesNamed A) (he : Earlier A) (h : checks addr fuel A = .ok o) (hn : Numbered A) (hf : Free A) (hm : Aimed A) :
    ∃ N, ∀ fuel, N ≤ fuel → ∀ code, ∃ V, vtable code fuel A o.tab = .ok V ∧ ∀ t ∈ A.traversals, ∃ x r,
      value (DGEast (Compiled.declsOf A)).trav (sTRAV ++ (idOf t.uid).upr) = some x ∧ V[x]? = some r ∧
      ∀ (k : Nat) n, A.nodes[k]? = some n → ∃ y f,
        value (DGEast (Compiled.declsOf A)).node (sNT ++ (idOf n.name).upr) = some y ∧ r[y]? = some (funOf code f) ∧
        Spec.Targets.Entry A t k n f := by
  have hr := (checks_facts ha hp he h).1.right
  have hnd := Compiled.named_of hr hf
  obtain ⟨N, hN⟩ := vtable_ok hr he hn hm hf
  refine ⟨N, fun fuel hfu code => ?_⟩
  obtain ⟨V, h1, _, h2⟩ := hN fuel hfu code
  refine ⟨V, h1, fun t ht => ?_⟩
  obtain ⟨j, hj⟩ := List.getElem?_of_mem ht
  obtain ⟨r, h3, h4⟩ := h2 j t hj
  refine ⟨j + 1, r, trav_value hnd (t := ⟨idOf t.name, idOf t.uid, t.index, !t.data.isEmpty⟩) (by simp [Compiled.declsOf, hj]), h3,
    fun k n hk => ?_⟩
  obtain ⟨f, h5, h6⟩ := h4 k n hk
  exact ⟨k + 1, f, node_value hnd (by simp [Compiled.declsOf, hk]), h5, h6⟩

/-- C67, runs: what a compiler without shortcuts does, the generated compiler does: with the same code of the user, from the same state, a
call of the traversal core ends with the same result and the same state, or ends the process in the same way.  A compiler without shortcuts
goes through every node that a traversal is not for, provided that there is a tree that the description allows.

Missing: as for `C67_targets_partial`, and what is reported about visits, as fewer nodes are visited. -/
theorem C67_runs_partial {addr : Loc → Nat} {fuel : Nat} {A : Parse.Ast} {o : Semantic.Out} (ha : Spec.Semantic.Apart addr)
    (hp : TypesNamed A) (he : Earlier A) (h : checks addr fuel A = .ok o) (hn : Numbered A) (hf : Free A) (hm : Aimed A) :
    ∃ N, ∀ fuel, N ≤ fuel → ∀ code, ∃ V, vtable code fuel A o.tab = .ok V ∧ ∀ E : Env, Blind E → ∀ n op s,
      (∀ p s', call { E with vtable := table A code } n op s = .ok (p, s') →
        ∃ s'', call { E with vtable := V } n op s = .ok (p, s'') ∧ Same s' s'') ∧
      ∀ why, call { E with vtable := table A code } n op s = .abort why → call { E with vtable := V } n op s = .abort why := by
  obtain ⟨N, hN⟩ := vtable_ok (checks_facts ha hp he h).1.right he hn hm hf
  refine ⟨N, fun fuel hfu code => ?_⟩
  obtain ⟨V, h1, h2, _⟩ := hN fuel hfu code
  refine ⟨V, h1, fun E hE n op s => ?_⟩
  have := (sim_call hE h2 n op).at (Same.refl s)
  refine ⟨fun p s' h3 => ?_, fun why h3 => ?_⟩
  · rw [h3] at this
    obtain ⟨⟨p', s''⟩, h4, h5⟩ := this
    obtain ⟨h5, h6⟩ := h5
    exact ⟨s'', by rw [h4, show p' = p from h5], h6⟩
  · rw [h3] at this
    exact this

/-- C67, nothing else: if the compiler without shortcuts never meets undefined behaviour (nor a tree that the description does not allow),
then neither does the generated compiler, and everything that it does is what the compiler without shortcuts does.

Missing: as for `C67_runs_partial`. -/
theorem C67_nothing_else_partial {addr : Loc → Nat} {fuel : Nat} {A : Parse.Ast} {o : Semantic.Out} (ha : Spec.Semantic.Apart addr)
    (hp : TypesNamed A) (he : Earlier A) (h : checks addr fuel A = .ok o) (hn : Numbered A) (hf : Free A) (hm : Aimed A) :
    ∃ N, ∀ fuel, N ≤ fuel → ∀ code, ∃ V, vtable code fuel A o.tab = .ok V ∧ ∀ E : Env, Blind E → ∀ op s,
      (∀ n why, call { E with vtable := table A code } n op s ≠ .ub why) → ∀ m,
        (∀ p s'', call { E with vtable := V } m op s = .ok (p, s'') →
          ∃ n s', call { E with vtable := table A code } n op s = .ok (p, s') ∧ Same s' s'') ∧
        (∀ why, call { E with vtable := V } m op s = .abort why → ∃ n, call { E with vtable := table A code } n op s = .abort why) ∧
        ∀ why, call { E with vtable := V } m op s ≠ .ub why := by
  obtain ⟨N, hN⟩ := vtable_ok (checks_facts ha hp he h).1.right he hn hm hf
  refine ⟨N, fun fuel hfu code => ?_⟩
  obtain ⟨V, h1, h2, _⟩ := hN fuel hfu code
  refine ⟨V, h1, fun E hE op s hub m => ?_⟩
  obtain ⟨n, hr⟩ := (back_call hE h2 m op).at (Same.refl s)
  cases hx : call { E with vtable := table A code } n op s with
  | ub why => exact absurd hx (hub n why)
  | ok a =>
    simp only [hx] at hr
    refine ⟨fun p s'' h3 => ?_, fun why h3 => ?_, fun why h3 => ?_⟩ <;> rw [h3] at hr
    · obtain ⟨p', s'⟩ := a
      obtain ⟨h5, h6⟩ := hr
      refine ⟨n, s', ?_, h6⟩
      rw [hx, show p = p' from h5]
    · exact hr.elim
    · exact hr.elim
  | abort w =>
    simp only [hx] at hr
    refine ⟨fun p s'' h3 => ?_, fun why h3 => ?_, fun why h3 => ?_⟩ <;> rw [h3] at hr
    · exact hr.elim
    · exact ⟨n, by rw [hx, show why = w from hr]⟩
    · exact hr.elim
  | diverge =>
    simp only [hx] at hr
    refine ⟨fun p s'' h3 => ?_, fun why h3 => ?_, fun why h3 => ?_⟩ <;> rw [h3] at hr <;> exact hr.elim

/-- C67, visits: a traversal whose functions just go on to the children, in a tree that the description allows.  It ends, nothing is
changed, and the nodes that are visited are some of the tree, from top to bottom and from left to right, among them all that the traversal
is for, and each of these once.

Missing: as for `C67_targets_partial`. -/
theorem C67_visits_partial {addr : Loc → Nat} {fuel : Nat} {A : Parse.Ast} {o : Semantic.Out} (ha : Spec.Semantic.Apart addr)
    (hp : TypesNamed A) (he : Earlier A) (h : checks addr fuel A = .ok o) (hn : Numbered A) (hf : Free A) (hm : Aimed A) :
    ∃ N, ∀ fuel, N ≤ fuel → ∃ V, vtable (fun _ => TRAVchildrenH) fuel A o.tab = .ok V ∧ ∀ t ∈ A.traversals, ∃ x,
      value (DGEast (Compiled.declsOf A)).trav (sTRAV ++ (idOf t.uid).upr) = some x ∧
      ∀ E : Env, E.vtable = V → ∀ (s : St) a k l, Walk A s.mem a k l → ∀ f fr, s.cur = some f → s.frames f = some fr → fr.ty = x →
        ∃ vs, Visits A t vs l ∧ ∃ n0, ∀ n, n0 ≤ n →
          call E n (.travDo (some a)) s = .ok (some a, { s with trace := s.trace ++ events f vs }) := by
  have hr := (checks_facts ha hp he h).1.right
  obtain ⟨N, hN⟩ := vtable_ok hr he hn hm hf
  refine ⟨N, fun fuel hfu => ?_⟩
  obtain ⟨V, h1, _, h2⟩ := hN fuel hfu (fun _ => TRAVchildrenH)
  refine ⟨V, h1, fun t ht => ?_⟩
  obtain ⟨j, hj⟩ := List.getElem?_of_mem ht
  obtain ⟨r, h3, h4⟩ := h2 j t hj
  refine ⟨j + 1, trav_value (Compiled.named_of hr hf) (t := ⟨idOf t.name, idOf t.uid, t.index, !t.data.isEmpty⟩)
    (by simp [Compiled.declsOf, hj]), fun E hE s a k l hw f fr e1 e2 e3 => ?_⟩
  obtain ⟨vs, g1, n0, g2⟩ := walk_visits (f := f) (fr := fr) (E := E) (by rw [hE, e3]; exact h3) h4 hw
  refine ⟨vs, g1, n0 + 1, fun n hn => ?_⟩
  obtain ⟨n, rfl⟩ : ∃ n', n = n' + 1 := ⟨n - 1, by omega⟩
  exact g2 n (by omega) s rfl e1 e2

/-- What the compiler without shortcuts is: with functions that just go on to the children, it visits all nodes. -/
theorem whole_visits {A : Parse.Ast} {E : Env} (hE : E.vtable = table A fun _ => TRAVchildrenH) {j : Nat} {t : Parse.Traversal}
    (ht : A.traversals[j]? = some t) {s : St} {a : Addr} {k : Nat} {l : List (Addr × Nat)} (hw : Walk A s.mem a k l) {f : Addr} {fr : Frame}
    (hc : s.cur = some f) (hf : s.frames f = some fr) (hy : fr.ty = j + 1) :
    ∃ n0, ∀ n, n0 ≤ n → call E n (.travDo (some a)) s = .ok (some a, { s with trace := s.trace ++ events f l }) := by
  obtain ⟨n0, h⟩ := walk_whole (E := E) (fr := fr) (f := f) (t := t) (by
    rw [hE, hy, table, List.cons_append, List.getElem?_cons_succ, List.getElem?_append_left (by
      rw [List.length_map]; exact (List.getElem?_eq_some_iff.1 ht).1), List.getElem?_map, ht]
    rfl) hw
  refine ⟨n0 + 1, fun n hn => ?_⟩
  obtain ⟨n, rfl⟩ : ∃ n', n = n' + 1 := ⟨n - 1, by omega⟩
  exact h n (by omega) s rfl hc hf

/-! ## Samples -/

/-- `start phase All { Rename; }  traversal Rename { uid = RN, nodes = {Var} }  root node Prog { children { Expr e, Note n } }`
`node Add { children { Expr l, Expr r } }  node Var;  node Note { children { Note next } }  nodeset Expr = {Add, Var}` -/
def walkFile : List Spec.Syntax.Entry :=
  [.phase (.mk true false (nm "All" 0) none none none (.one (.ref (nm "Rename" 0)))),
    .traversal ⟨nm "Rename" 0, none, nm "RN" 0, some ⟨.lit (nm "Var" 0) [], .nil⟩, []⟩,
    .node ⟨true, nm "Prog" 0, [⟨nm "Expr" 0, nm "e" 0, none⟩, ⟨nm "Note" 0, nm "n" 0, none⟩], [], [], [], false⟩,
    .node ⟨false, nm "Add" 0, [⟨nm "Expr" 0, nm "l" 0, none⟩, ⟨nm "Expr" 0, nm "r" 0, none⟩], [], [], [], false⟩,
    .node ⟨false, nm "Var" 0, [], [], [], [], false⟩,
    .node ⟨false, nm "Note" 0, [⟨nm "Note" 0, nm "next" 0, none⟩], [], [], [], false⟩,
    .nodeset (.short (nm "Expr" 0) ⟨.lit (nm "Add" 0) [nm "Var" 0], .nil⟩)]

/-- As a check. -/
theorem numbered_of {A : Parse.Ast} (h : A.nodes.map (·.index) = (List.range A.numNodes).reverse ∧
    A.traversals.map (·.index) = (List.range A.numTraversals).reverse) : Numbered A := by
  refine ⟨fun i => ?_, ?_, fun t ht => ?_, ?_⟩
  · rw [← List.mem_range, ← List.mem_reverse, ← h.1, List.mem_map]
  · rw [h.1]
    exact List.nodup_reverse.2 List.nodup_range
  · rw [← List.mem_range, ← List.mem_reverse, ← h.2]
    exact List.mem_map_of_mem ht
  · rw [h.2]
    exact List.nodup_reverse.2 List.nodup_range

theorem walk_aimed : Aimed (ast walkFile) := by
  intro t ht _
  obtain rfl : t = ⟨nm "Rename" 0, none, nm "RN" 0, some (.lit [nm "Var" 0]), [], 0⟩ := by
    have e : (ast walkFile).traversals = [⟨nm "Rename" 0, none, nm "RN" 0, some (.lit [nm "Var" 0]), [], 0⟩] := by decide +kernel
    rw [e] at ht
    exact List.mem_singleton.1 ht
  exact ⟨⟨nm "Var" 0, false, [], [], [], [], 2⟩, by decide +kernel, _, .lit _, nm "Var" 0, List.mem_singleton_self _, rfl⟩

/-- A program with `Add(Var, NULL)` and two notes. -/
def walkMem : Mem := fun a =>
  if a = 10 then some (.node ⟨4, some 11, some 11, none, 2, 1, 1, 1, 1⟩)
  else if a = 11 then some (.data ⟨4, [some 20, some 40], []⟩)
  else if a = 20 then some (.node ⟨3, some 21, some 21, none, 2, 1, 1, 1, 1⟩)
  else if a = 21 then some (.data ⟨3, [some 30, none], []⟩)
  else if a = 30 then some (.node ⟨2, none, none, none, 0, 1, 1, 1, 1⟩)
  else if a = 40 then some (.node ⟨1, some 41, some 41, none, 1, 1, 1, 1, 1⟩)
  else if a = 41 then some (.data ⟨1, [some 50], []⟩)
  else if a = 50 then some (.node ⟨1, some 51, some 51, none, 1, 1, 1, 1, 1⟩)
  else if a = 51 then some (.data ⟨1, [none], []⟩)
  else none

theorem walk_tree : Walk (ast walkFile) walkMem 10 3 [(10, 3), (20, 2), (30, 1), (40, 0), (50, 0)] := by
  have allow : ∀ (c : Parse.Child) (n : Parse.Node), Spec.Str.SameName n.name.orig c.type.orig → Allows (ast walkFile) c n :=
    fun c n h => Or.inl h
  have expr : ∀ (c : Parse.Child) (n : Parse.Node), Spec.Str.SameName (by8 "Expr") c.type.orig →
      (∃ i ∈ [nm "Add" 0, nm "Var" 0], Spec.Str.SameName i.orig n.name.orig) → Allows (ast walkFile) c n := fun c n h1 h2 =>
    Or.inr ⟨⟨nm "Expr" 0, .lit [nm "Add" 0, nm "Var" 0], none, []⟩, by decide +kernel, h1, _, .lit _, h2⟩
  have var : Walk (ast walkFile) walkMem 30 1 [(30, 1)] :=
    .leaf (b := ⟨2, none, none, none, 0, 1, 1, 1, 1⟩) (n := ⟨nm "Var" 0, false, [], [], [], [], 2⟩) rfl (by decide +kernel) rfl rfl rfl
  have note : ∀ a e d l, walkMem a = some (.node ⟨1, some e, some e, none, 1, 1, 1, 1, 1⟩) → walkMem e = some (.data ⟨1, [d], []⟩) →
      WalkKids (ast walkFile) walkMem [⟨nm "next" 0, nm "Note" 0, false, []⟩] [d] l → Walk (ast walkFile) walkMem a 0 ((a, 0) :: l) :=
    fun a e d l h1 h2 h3 => .mk (n := ⟨nm "Note" 0, false, [⟨nm "next" 0, nm "Note" 0, false, []⟩], [], [], [], 3⟩) h1 (by decide +kernel) rfl rfl h2 rfl
      (by show 1 ≤ INT_MAX; decide) h3
  have note2 := note 50 51 none [] rfl rfl (.none .nil)
  have note1 := note 40 41 (some 50) _ rfl rfl (.some (n := ⟨nm "Note" 0, false, [⟨nm "next" 0, nm "Note" 0, false, []⟩], [], [], [], 3⟩)
    (by decide +kernel) (allow _ _ rfl) note2 .nil)
  have add : Walk (ast walkFile) walkMem 20 2 [(20, 2), (30, 1)] :=
    .mk (b := ⟨3, some 21, some 21, none, 2, 1, 1, 1, 1⟩) (d := ⟨3, [some 30, none], []⟩)
      (n := ⟨nm "Add" 0, false, [⟨nm "l" 0, nm "Expr" 0, false, []⟩, ⟨nm "r" 0, nm "Expr" 0, false, []⟩], [], [], [], 1⟩) rfl (by decide +kernel) rfl rfl
      rfl rfl (by decide) (.some (n := ⟨nm "Var" 0, false, [], [], [], [], 2⟩) (by decide +kernel)
        (expr _ _ (by decide +kernel) ⟨nm "Var" 0, by simp, rfl⟩) var (.none .nil))
  exact .mk (b := ⟨4, some 11, some 11, none, 2, 1, 1, 1, 1⟩) (d := ⟨4, [some 20, some 40], []⟩)
    (n := ⟨nm "Prog" 0, true, [⟨nm "e" 0, nm "Expr" 0, false, []⟩, ⟨nm "n" 0, nm "Note" 0, false, []⟩], [], [], [], 0⟩) rfl (by decide +kernel) rfl rfl
    rfl rfl (by decide) (.some (n := ⟨nm "Add" 0, false, [⟨nm "l" 0, nm "Expr" 0, false, []⟩, ⟨nm "r" 0, nm "Expr" 0, false, []⟩], [], [], [], 1⟩)
      (by decide +kernel) (expr _ _ (by decide +kernel) ⟨nm "Add" 0, by simp, rfl⟩) add (.some (n := ⟨nm "Note" 0, false, [⟨nm "next" 0, nm "Note" 0, false, []⟩], [], [], [], 3⟩)
      (by decide +kernel) (allow ⟨nm "n" 0, nm "Note" 0, false, []⟩ _ rfl) note1 .nil))

/-- A state in the traversal `Rename`. -/
def walkSt : St := { mem := walkMem, frames := fun a => if a = 5 then some ⟨none, 1, none⟩ else none, dmem := fun _ => none, cur := some 5, trace := [] }

theorem tEnv_blind : Blind tEnv := by
  refine ⟨fun s t h => ?_, fun s t h => ?_⟩
  · show tNew t.frames = tNew s.frames
    rw [h.2.1]
  · show tNew t.dmem = tNew s.dmem
    rw [h.2.2.1]

/-- The theorems about C67 apply to the sample: the traversal visits `Prog`, `Add`, `Var` and the first note, but not the second, and a
compiler without shortcuts visits all. -/
example : TypesNamed (ast walkFile) ∧ Earlier (ast walkFile) ∧ Numbered (ast walkFile) ∧ Free (ast walkFile) ∧ Aimed (ast walkFile) ∧ Blind tEnv ∧
    Walk (ast walkFile) walkSt.mem 10 3 [(10, 3), (20, 2), (30, 1), (40, 0), (50, 0)] ∧
    (∃ n, call { tEnv with vtable := table (ast walkFile) fun _ => TRAVchildrenH } n (.travDo (some 10)) walkSt =
      .ok (some 10, { walkSt with trace := [.visit 5 10, .visit 5 20, .visit 5 30, .visit 5 40, .visit 5 50] })) ∧
    ∃ o V, checks sampleAddr 60 (ast walkFile) = .ok o ∧ o.errors = 0 ∧ vtable (fun _ => TRAVchildrenH) 60 (ast walkFile) o.tab = .ok V ∧
      ∃ s, call { tEnv with vtable := V } 60 (.travDo (some 10)) walkSt = .ok (some 10, s) ∧
        s.trace = [.visit 5 10, .visit 5 20, .visit 5 30, .visit 5 40] := by
  refine ⟨named_of_plain (by decide +kernel), earlier_of_flat (by decide +kernel), numbered_of (by decide +kernel),
    free_of (by unfold Null; decide +kernel), walk_aimed, tEnv_blind, walk_tree, ?_, ?_⟩
  · obtain ⟨n, h⟩ := whole_visits (E := { tEnv with vtable := table (ast walkFile) fun _ => TRAVchildrenH }) rfl (j := 0)
      (t := ⟨nm "Rename" 0, none, nm "RN" 0, some (.lit [nm "Var" 0]), [], 0⟩) (by decide +kernel) (s := walkSt) walk_tree (f := 5)
      (fr := ⟨none, 1, none⟩) rfl rfl rfl
    exact ⟨n, h n (Nat.le_refl n)⟩
  · have run : (match checks sampleAddr 60 (ast walkFile) with
      | .ok o => match vtable (fun _ => TRAVchildrenH) 60 (ast walkFile) o.tab with
        | .ok V => match call { tEnv with vtable := V } 60 (.travDo (some 10)) walkSt with
          | .ok (p, s) => o.errors == 0 && decide (p = some 10 ∧ s.trace = [.visit 5 10, .visit 5 20, .visit 5 30, .visit 5 40])
          | _ => false
        | _ => false
      | _ => false) = true := by decide +kernel
    split at run
    · rename_i o ho
      split at run
      · rename_i V hV
        split at run
        · rename_i p s hs
          simp only [Bool.and_eq_true, beq_iff_eq, decide_eq_true_eq] at run
          obtain ⟨h1, rfl, h2⟩ := run
          exact ⟨o, V, ho, h1, hV, s, hs, h2⟩
        · cases run
      · cases run
    · cases run

/-! ## Where it is false -/

/-- `start phase All { Rename; }  traversal Rename { uid = RN, nodes = {Var} - {Var} }  root node Prog { children { Var v } }  node Var;` -/
def noneFile : List Spec.Syntax.Entry :=
  [.phase (.mk true false (nm "All" 0) none none none (.one (.ref (nm "Rename" 0)))),
    .traversal ⟨nm "Rename" 0, none, nm "RN" 0, some ⟨.lit (nm "Var" 0) [], .cons .difference (.lit (nm "Var" 0) []) .nil⟩, []⟩,
    .node ⟨true, nm "Prog" 0, [⟨nm "Var" 0, nm "v" 0, none⟩], [], [], [], false⟩, .node ⟨false, nm "Var" 0, [], [], [], [], false⟩]

/-- C67 is false for a traversal with a set without nodes: it is for no node, and its table has functions of the user for all. -/
theorem C67_empty_false : ∃ A t, TypesNamed A ∧ Earlier A ∧ Numbered A ∧ Free A ∧ A.traversals = [t] ∧ (∀ n ∈ A.nodes, ¬ Target t A n) ∧
    ∃ o ts, checks sampleAddr 60 A = .ok o ∧ o.errors = 0 ∧ tables 60 A o.tab = .ok ts ∧
      (ts[0]?.map fun (T : Table) => (T.name, T.entries)) =
        some (by8 "rename_vtable", [.travError, .named (by8 "RNvar"), .named (by8 "RNprog")]) := by
  refine ⟨ast noneFile, ⟨nm "Rename" 0, none, nm "RN" 0, some (.op .difference (.lit [nm "Var" 0]) (.lit [nm "Var" 0])), [], 0⟩,
    named_of_plain (by decide +kernel), earlier_of_flat (by decide +kernel), numbered_of (by decide +kernel),
    free_of (by unfold Null; decide +kernel), by decide +kernel, ?_, ?_⟩
  · rintro n _ ⟨D, hD, h⟩
    cases hD with
    | diff h1 h2 =>
      cases h1
      cases h2
      exact h.2 h.1
  · have run : (match checks sampleAddr 60 (ast noneFile) with
      | .ok o => match tables 60 (ast noneFile) o.tab with
        | .ok ts => o.errors == 0 && decide ((ts[0]?.map fun (T : Table) => (T.name, T.entries)) =
          some (by8 "rename_vtable", [.travError, .named (by8 "RNvar"), .named (by8 "RNprog")]))
        | _ => false
      | _ => false) = true := by decide +kernel
    split at run
    · rename_i o ho
      split at run
      · rename_i ts hts
        simp only [Bool.and_eq_true, beq_iff_eq, decide_eq_true_eq] at run
        exact ⟨o, ts, ho, run.1, hts, run.2⟩
      · cases run
    · cases run

end Verif.Props
