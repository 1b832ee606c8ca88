import Verif.Lemmas.GenFilesKeys

/-!
# What a run leaves on the disk
-/

namespace Verif.GenFiles
open Verif.Str Verif.Ids Verif.Semantic
open Verif.Spec.Str (lowerB upperB SameName)
open Verif.Spec.Semantic (TypesNamed)
open Verif.Spec.GenFiles (NoSlash Made Source UsersNamed GenDir Room below)

theorem dirify {g d : CStr} (h : GenDir g d) : FSdirifyString g = .ok d ∧ d.getLast? = some 47 := by
  unfold FSdirifyString
  cases h with
  | slash h => rw [h]; exact ⟨rfl, rfl⟩
  | plain h1 h2 =>
    have ht : Spec.GenFiles.t "/" = [47] := by decide +kernel
    cases hl : g.getLast? with
    | none => exact absurd (List.getLast?_eq_none_iff.1 hl) h1
    | some c =>
      have hc : (c != 47) = true := by
        rw [bne_iff_ne]
        rintro rfl
        exact h2 hl
      refine ⟨?_, ?_⟩
      · dsimp only
        rw [hc, ht]
      · rw [ht, List.getLast?_concat]

theorem ensure {d : CStr} {k : Disk} (h : d ∈ k.dirs ∨ k.file d.dropLast = none ∧ dirName d.dropLast ∈ k.dirs) :
    ∃ k', FSensureDirExists d k = .ok k' ∧ k'.file = k.file ∧ ∀ x, x ∈ k'.dirs ↔ x = d ∨ x ∈ k.dirs := by
  unfold FSensureDirExists
  cases hc : k.dirs.contains d with
  | true =>
    refine ⟨k, rfl, rfl, fun x => ⟨Or.inr, ?_⟩⟩
    rintro (rfl | h)
    · exact List.contains_iff_mem.1 hc
    · exact h
  | false =>
    rcases h with h | ⟨h1, h2⟩
    · rw [List.contains_iff_mem.2 h] at hc
      cases hc
    · dsimp only
      rw [h1, List.contains_iff_mem.2 h2]
      exact ⟨_, rfl, rfl, fun x => List.mem_cons⟩

/-- One of the directories below. -/
theorem ensure_sub {d s p : CStr} {k : Disk} (hs : s = p ++ [47]) (hf : k.file (d ++ p) = none)
    (hp : dirName (d ++ p) ∈ k.dirs) : ∃ k', FSensureDirExists (d ++ s) k = .ok k' ∧ k'.file = k.file ∧
      ∀ x, x ∈ k'.dirs ↔ x = d ++ s ∨ x ∈ k.dirs := by
  apply ensure
  subst hs
  have : (d ++ (p ++ [47])).dropLast = d ++ p := by rw [← List.append_assoc, List.dropLast_concat]
  rw [this]
  exact Or.inr ⟨hf, hp⟩

variable {A : Parse.Ast} {o : Out}

/-- The run leaves these files and directories. -/
structure Ran (A : Parse.Ast) (d : CStr) (k k' : Disk) (bs : List Block) : Prop where
  dirs : ∀ x, x ∈ k'.dirs ↔ x = d ∨ (∃ s ∈ below, x = d ++ s ++ Spec.GenFiles.t "/") ∨ x ∈ k.dirs
  file : ∀ p c, (p, c) ∈ bs → k'.file (d ++ p) = some c
  rest : ∀ q, (∀ b ∈ bs, q ≠ d ++ b.1) → k'.file q = k.file q

theorem dirs_ok {d : CStr} (hd : d.getLast? = some 47) {k : Disk} (hr : Room k.dirs k.file d) :
    ∃ k1 k2 k3 k4 k5 k6, FSensureDirExists d k = .ok k1 ∧ FSensureDirExists (d ++ b!"ccngen/") k1 = .ok k2 ∧
      FSensureDirExists (d ++ b!"ccngen/equations/") k2 = .ok k3 ∧ FSensureDirExists (d ++ b!"user/") k3 = .ok k4 ∧
      FSensureDirExists (d ++ b!"ag_dot/") k4 = .ok k5 ∧ FSensureDirExists (d ++ b!"log/") k5 = .ok k6 ∧ k6.file = k.file ∧
      ∀ x, x ∈ k6.dirs ↔ x = d ∨ (∃ s ∈ below, x = d ++ s ++ Spec.GenFiles.t "/") ∨ x ∈ k.dirs := by
  have hb : below = [b!"ccngen", b!"ccngen/equations", b!"user", b!"ag_dot", b!"log"] := by decide +kernel
  have ht : Spec.GenFiles.t "/" = [47] := by decide +kernel
  have free := hr.free
  rw [hb] at free
  have sub : ∀ p : CStr, (47 : UInt8) ∉ p → dirName (d ++ p) = d := fun p hp => dir_in hd hp
  have sub2 : dirName (d ++ b!"ccngen/equations") = d ++ b!"ccngen/" := by rw [dirName_append hd]; rfl
  obtain ⟨k1, h1, f1, d1⟩ := ensure hr.top
  obtain ⟨k2, h2, f2, d2⟩ := ensure_sub (d := d) (s := b!"ccngen/") (p := b!"ccngen") (k := k1) rfl
    (by rw [f1]; exact free b!"ccngen" (by decide)) (by rw [sub b!"ccngen" (by decide), d1]; exact Or.inl rfl)
  obtain ⟨k3, h3, f3, d3⟩ := ensure_sub (d := d) (s := b!"ccngen/equations/") (p := b!"ccngen/equations") (k := k2) rfl
    (by rw [f2, f1]; exact free b!"ccngen/equations" (by decide)) (by rw [sub2, d2]; exact Or.inl rfl)
  obtain ⟨k4, h4, f4, d4⟩ := ensure_sub (d := d) (s := b!"user/") (p := b!"user") (k := k3) rfl
    (by rw [f3, f2, f1]; exact free b!"user" (by decide)) (by rw [sub b!"user" (by decide), d3, d2, d1]; exact Or.inr (Or.inr (Or.inl rfl)))
  obtain ⟨k5, h5, f5, d5⟩ := ensure_sub (d := d) (s := b!"ag_dot/") (p := b!"ag_dot") (k := k4) rfl
    (by rw [f4, f3, f2, f1]; exact free b!"ag_dot" (by decide))
    (by rw [sub b!"ag_dot" (by decide), d4, d3, d2, d1]; exact Or.inr (Or.inr (Or.inr (Or.inl rfl))))
  obtain ⟨k6, h6, f6, d6⟩ := ensure_sub (d := d) (s := b!"log/") (p := b!"log") (k := k5) rfl
    (by rw [f5, f4, f3, f2, f1]; exact free b!"log" (by decide))
    (by rw [sub b!"log" (by decide), d5, d4, d3, d2, d1]; exact Or.inr (Or.inr (Or.inr (Or.inr (Or.inl rfl)))))
  refine ⟨k1, k2, k3, k4, k5, k6, h1, h2, h3, h4, h5, h6, by rw [f6, f5, f4, f3, f2, f1], fun x => ?_⟩
  rw [d6, d5, d4, d3, d2, d1, hb, ht]
  simp only [List.mem_cons, List.not_mem_nil, or_false, exists_eq_or_imp, List.append_assoc, List.cons_append, List.nil_append,
    exists_eq_left]
  constructor
  · rintro (h | h | h | h | h | h | h)
    · exact Or.inr (Or.inl (Or.inr (Or.inr (Or.inr (Or.inr h)))))
    · exact Or.inr (Or.inl (Or.inr (Or.inr (Or.inr (Or.inl h)))))
    · exact Or.inr (Or.inl (Or.inr (Or.inr (Or.inl h))))
    · exact Or.inr (Or.inl (Or.inr (Or.inl h)))
    · exact Or.inr (Or.inl (Or.inl h))
    · exact Or.inl h
    · exact Or.inr (Or.inr h)
  · rintro (h | (h | h | h | h | h) | h)
    · exact Or.inr (Or.inr (Or.inr (Or.inr (Or.inr (Or.inl h)))))
    · exact Or.inr (Or.inr (Or.inr (Or.inr (Or.inl h))))
    · exact Or.inr (Or.inr (Or.inr (Or.inl h)))
    · exact Or.inr (Or.inr (Or.inl h))
    · exact Or.inr (Or.inl h)
    · exact Or.inl h
    · exact Or.inr (Or.inr (Or.inr (Or.inr (Or.inr (Or.inr h)))))

theorem run_ok {addr : Loc → Nat} {fuel : Nat} (ha : Spec.Semantic.Apart addr) (hp : TypesNamed A) (he : Spec.Semantic.Earlier A)
    (hu : UsersNamed A) (hn : NoSlash A) (h : checks addr fuel A = .ok o) (h0 : o.errors = 0) {backend : CStr}
    (hb : backendIsDynamic backend = .ok true) {g d : CStr} (hg : GenDir g d) {k : Disk} (hr : Room k.dirs k.file d) :
    ∃ v u hs ts k', main g backend A o k = .ok k' ∧ Written A v u hs ts ∧ Good A v u ∧ Ran A d k k' (blocks A v u hs ts) := by
  obtain ⟨v, u, hs, ts, h1, hw, hgd⟩ := start_ok ha hp he hu h h0 hb
  obtain ⟨hd1, hd2⟩ := dirify hg
  obtain ⟨k1, k2, k3, k4, k5, k6, e1, e2, e3, e4, e5, e6, hf, hdirs⟩ := dirs_ok hd2 hr
  have kn := Described.known_of ha hp he h h0
  have ht : Spec.GenFiles.t "/" = [47] := by decide +kernel
  obtain ⟨k', hx, hd, hfile, hrest⟩ := exec_blocks d (blocks A v u hs ts) (k := k6) (keys_nodup kn.facts.right hw) (by
    intro b hb
    have hk := dir_key hn ((mem_keys hw).1 (List.mem_map_of_mem hb))
    rw [dirName_append hd2, hdirs, ht]
    simp only [dirNames, List.mem_cons, List.not_mem_nil, or_false] at hk
    rcases hk with h | h | h | h
    · rw [h, List.append_nil]; exact Or.inl rfl
    · exact Or.inr (Or.inl ⟨b!"ccngen", by decide +kernel, by rw [h, List.append_assoc]; rfl⟩)
    · exact Or.inr (Or.inl ⟨b!"ccngen/equations", by decide +kernel, by rw [h, List.append_assoc]; rfl⟩)
    · exact Or.inr (Or.inl ⟨b!"user", by decide +kernel, by rw [h, List.append_assoc]; rfl⟩))
  refine ⟨v, u, hs, ts, k', ?_, hw, hgd, ⟨fun x => by rw [hd]; exact hdirs x, hfile, fun q hq => by rw [hrest q hq, hf]⟩⟩
  unfold main
  exact Res.bind_eq_ok.2 ⟨_, hd1, Res.bind_eq_ok.2 ⟨_, e1, Res.bind_eq_ok.2 ⟨_, e2, Res.bind_eq_ok.2 ⟨_, e3, Res.bind_eq_ok.2 ⟨_, e4,
    Res.bind_eq_ok.2 ⟨_, e5, Res.bind_eq_ok.2 ⟨_, e6, Res.bind_eq_ok.2 ⟨_, h1, hx⟩⟩⟩⟩⟩⟩⟩⟩

end Verif.GenFiles
