import Verif.Lemmas.GenFilesTypes

/-!
# Nodesets with attributes have members
-/

namespace Verif.GenFiles
open Verif.Str Verif.Ids Verif.Semantic
open Verif.Spec.Str (lowerB upperB SameName)
open Verif.Spec.Semantic (NodeAttr SetAttr Earlier Means Member Rules Narrows Names named)
open Verif.Spec.GenFiles (UserSeen SetTypesSeen Listed SetsListed)
open Verif.Described (Known)

variable {A : Parse.Ast} {o : Out}

theorem setAttr_on {i j : Nat} {a : Parse.Attr} (h : SetAttr A i a) (hn : Names A i j) : SetAttr A j a := by
  have snoc : ∀ {i j}, Spec.Graph.Path (Names A) i j → ∀ {k}, Names A j k → Spec.Graph.Path (Names A) i k := by
    intro i j h
    induction h with
    | edge h => exact fun h' => .step h (.edge h')
    | step h _ ih => exact fun h' => .step h (ih h')
  cases h with
  | own h1 h2 => exact .named h1 h2 (.edge hn)
  | named h1 h2 h3 => exact .named h1 h2 (snoc h3 hn)

/-- What an expression denotes; a union has members. -/
def Full (A : Parse.Ast) (e : Parse.SetE) (P : Prop) : Prop :=
  ∃ D, Means A e D ∧ (P → ¬ Narrows e → ∃ (k : Nat) (n : Parse.Node), A.nodes[k]? = some n ∧ D n.name.orig)

theorem full_lit {l : List Parse.Name} (he : Spec.CheckExist.ExprOk (progOf A) (exprOf (.lit l))) (hl : Listed (.lit l)) (P : Prop) :
    Full A (.lit l) P := by
  refine ⟨_, .lit l, fun _ _ => ?_⟩
  cases l with
  | nil => exact absurd rfl hl
  | cons x l =>
    obtain ⟨k, m, h1, h2⟩ := denotes_node (he (idOf x) (List.mem_map.2 ⟨x, List.mem_cons_self, rfl⟩))
    exact ⟨k, m, h1, x, List.mem_cons_self, h2.symm⟩

theorem full_expr {i : Nat} {s : Parse.NodeSet} (hs : A.nodesets[i]? = some s) (he : Earlier A) (hl : SetsListed A)
    (hok : ∀ s ∈ A.nodesets, Spec.CheckExist.ExprOk (progOf A) (exprOf s.expr)) (hr : Rules A)
    (ih : ∀ j t, i < j → A.nodesets[j]? = some t → Full A t.expr (∃ a, SetAttr A j a)) :
    ∀ e, (∀ n ∈ named e, n ∈ named s.expr) → Listed e → Spec.CheckExist.ExprOk (progOf A) (exprOf e) → Full A e (∃ a, SetAttr A i a)
  | .lit l, _, hl', hk => full_lit hk hl' _
  | .ref n, hn, _, hk => by
    obtain ⟨j, t, h1, h2⟩ := denotes_set (n := idOf n) hk
    have hname : Names A i j := ⟨s, t, hs, h1, n, hn n (by simp [named]), h2⟩
    have ht : Full A t.expr (∃ a, SetAttr A j a) := by
      rcases he i s hs n (hn n (by simp [named])) j t h1 h2 with h3 | ⟨l, h3⟩
      · exact ih j t h3 h1
      · have hk' := hok t (List.mem_of_getElem? h1)
        have hl' := hl t (List.mem_of_getElem? h1)
        rw [h3] at hk' hl' ⊢
        exact full_lit hk' hl' _
    obtain ⟨D, d1, d2⟩ := ht
    refine ⟨D, .ref (List.mem_of_getElem? h1) h2 d1, fun ⟨a, ha⟩ _ => d2 ⟨a, setAttr_on ha hname⟩ ?_⟩
    exact hr.unions j t a h1 (setAttr_on ha hname)
  | .op o l r, hn, hl', hk => by
    have hk' : Spec.CheckExist.ExprOk (progOf A) (exprOf l) ∧ Spec.CheckExist.ExprOk (progOf A) (exprOf r) := by
      cases o <;> exact hk
    obtain ⟨D, d1, d2⟩ := full_expr hs he hl hok hr ih l (fun n h => hn n (by simp [named, h])) hl'.1 hk'.1
    obtain ⟨E, e1, _⟩ := full_expr hs he hl hok hr ih r (fun n h => hn n (by simp [named, h])) hl'.2 hk'.2
    cases o with
    | iunion =>
      refine ⟨_, .union d1 e1, fun hp hw => ?_⟩
      obtain ⟨k, n, h1, h2⟩ := d2 hp fun h => hw (.inl h)
      exact ⟨k, n, h1, .inl h2⟩
    | intersect => exact ⟨_, .inter d1 e1, fun _ hw => absurd trivial hw⟩
    | difference => exact ⟨_, .diff d1 e1, fun _ hw => absurd trivial hw⟩

theorem full_set (he : Earlier A) (hl : SetsListed A) (hok : ∀ s ∈ A.nodesets, Spec.CheckExist.ExprOk (progOf A) (exprOf s.expr)) (hr : Rules A) :
    ∀ m i s, A.nodesets.length - i ≤ m → A.nodesets[i]? = some s → Full A s.expr (∃ a, SetAttr A i a)
  | 0, i, s, h, hs => by
    have := (List.getElem?_eq_some_iff.1 hs).1
    omega
  | m + 1, i, s, h, hs => by
    have hi := (List.getElem?_eq_some_iff.1 hs).1
    exact full_expr hs he hl hok hr (fun j t hj ht => full_set he hl hok hr m j t (by omega) ht) s.expr (fun _ h => h)
      (hl s (List.mem_of_getElem? hs)) (hok s (List.mem_of_getElem? hs))

theorem has_member (kn : Known A o) (h0 : o.errors = 0) (he : Earlier A) (hl : SetsListed A) {i : Nat} {s : Parse.NodeSet} (hs : A.nodesets[i]? = some s)
    {a : Parse.Attr} (ha : SetAttr A i a) : ∃ k, Member A i k := by
  have hr := kn.facts.rules h0
  obtain ⟨D, h1, h2⟩ := full_set he hl (fun s hs => kn.facts.right.expr hs) hr _ i s (Nat.le_refl _) hs
  obtain ⟨k, n, h3, h4⟩ := h2 ⟨a, ha⟩ (hr.unions i s a hs ha)
  exact ⟨k, s, n, D, hs, h3, h1, h4⟩

/-- If a nodeset has a type of the user, its members have it. -/
theorem sets_seen (kn : Known A o) (h0 : o.errors = 0) (he : Earlier A) (hl : SetsListed A) : SetTypesSeen A := by
  intro s hs a ha hu
  obtain ⟨i, hi⟩ := List.getElem?_of_mem hs
  obtain ⟨k, hm⟩ := has_member kn h0 he hl hi (.own hi ha)
  obtain ⟨_, n, _, _, hn, _, _⟩ := id hm
  have lt : ∀ {α : Type} {l : List α} {k : Nat} {x : α}, l[k]? = some x → k < l.length := fun h => (List.getElem?_eq_some_iff.1 h).1
  obtain ⟨a', ha', hla, hka⟩ := kn.facts.ownSet i s hi a ha
  have hta := (hka.typed (Described.ok_set kn.facts.right hs ha) (kn.types.sets s hs a ha)).user.2 hu
  obtain ⟨c, hc, hc1, _, _, hc2⟩ := kn.same i (lt hi) a' ha' k hm
  refine .attr hn (.member hi ha hm) fun b hb hsame => ?_
  have uniq : ∀ d ∈ o.attrs (.node k), d.name = c.name → d = c := fun d hd e => ProductRules.nodup_eq (kn.nodeNames k (lt hn)) hd hc e
  cases hb with
  | own h1 h2 =>
    obtain ⟨b', hb', hlb, hkb⟩ := kn.facts.ownNode k _ h1 b h2
    have e := uniq b' hb' (by rw [hc1, hlb.name, hla.name]; exact lwr_code.2 hsame)
    exact (hkb.typed (Described.ok_node kn.facts.right (List.mem_of_getElem? h1) h2) (kn.types.nodes _ (List.mem_of_getElem? h1) b h2)).user.1
      (by rw [e, hc2, hta])
  | member h1 h2 h3 =>
    obtain ⟨b', hb', hlb, hkb⟩ := kn.facts.ownSet _ _ h1 b h2
    obtain ⟨d, hd, hd1, _, _, hd2⟩ := kn.same _ (lt h1) b' hb' k h3
    have e := uniq d hd (by rw [hd1, hc1, hlb.name, hla.name]; exact lwr_code.2 hsame)
    exact (hkb.typed (Described.ok_set kn.facts.right (List.mem_of_getElem? h1) h2) (kn.types.sets _ (List.mem_of_getElem? h1) b h2)).user.1
      (by rw [← hd2, e, hc2, hta])

end Verif.GenFiles
