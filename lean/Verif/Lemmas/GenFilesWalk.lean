import Verif.Spec.GenFiles

/-!
# Includes: a static check is enough, and what cannot be known
-/

namespace Verif.Spec.GenFiles
open Verif.Str
open Verif.GenFiles (Sym Item)

/-- The file at a place. -/
def At (w : World) : Place → List Item → Prop
  | .made p, c => w.file p = some c
  | .lib n, c => w.lib n = some c

theorem find_at {w : World} {dir : Option CStr} {sys : Bool} {name : CStr} {p : Place} {c : List Item}
    (h : find w dir sys name = some (p, c)) : At w p c := by
  have hp : ∀ {name}, findPath w name = some (p, c) → At w p c := by
    intro name h
    unfold findPath at h
    split at h
    · rename_i x hx; cases h; exact hx
    · unfold findLib at h
      cases hl : w.lib name with
      | none => rw [hl] at h; cases h
      | some x => rw [hl] at h; cases h; exact hl
  unfold find at h
  split at h
  · split at h
    · rename_i x hx; cases h; exact hx
    · exact hp h
  · exact hp h

theorem at_inj {w : World} {p : Place} {c d : List Item} (h1 : At w p c) (h2 : At w p d) : c = d := by
  cases p with
  | made x => exact Option.some.inj (h1.symm.trans h2)
  | lib x => exact Option.some.inj (h1.symm.trans h2)

section
variable (w : World) (rank : Place → Nat) {K : Type} (cover : K → List Sym) (need prov : Place → List K) (Fine : Sym → Prop)

/-- The words of a list of classes. -/
def Covers (av : List K) (x : Sym) : Prop := ∃ k ∈ av, x ∈ cover k

/-- The lines of a file of rank `r` work out, if the classes `av` are known before it; the classes `fin` are known after it. -/
inductive Flow (dir : Option CStr) (r : Nat) : List K → List Item → List K → Prop where
  | nil {av : List K} : Flow dir r av [] av
  | once {av fin : List K} {is : List Item} : Flow dir r av is fin → Flow dir r av (.once :: is) fin
  | incl {av fin : List K} {is : List Item} {sys : Bool} {name : CStr} {p : Place} {c : List Item} : find w dir sys name = some (p, c) →
      rank p < r → Item.once ∈ c → (∀ k ∈ need p, k ∈ av) → Flow dir r (av ++ prov p) is fin → Flow dir r av (.incl sys name :: is) fin
  | on {av fin : List K} {is : List Item} {name : CStr} {p : Place} {c : List Item} : Covers cover av usesUnsafe →
      find w dir false name = some (p, c) → rank p < r → Item.once ∈ c → (∀ k ∈ need p, k ∈ av) → Flow dir r (av ++ prov p) is fin →
      Flow dir r av (.ifUnsafe name :: is) fin
  | off {av fin l : List K} {is : List Item} {name : CStr} : ¬ Fine usesUnsafe → (∀ k ∈ l, cover k = []) → Flow dir r (av ++ l) is fin →
      Flow dir r av (.ifUnsafe name :: is) fin
  | text {av fin l : List K} {is : List Item} {ds us : List Sym} : (∀ x ∈ ds, Fine x) → (∀ x ∈ us, Covers cover av x) →
      (∀ k ∈ l, ∀ x ∈ cover k, x ∈ ds) → Flow dir r (av ++ l) is fin → Flow dir r av (.text ds us :: is) fin
  | also {av fin : List K} {is : List Item} (k : K) : (∀ x ∈ cover k, Covers cover av x) → Flow dir r (av ++ [k]) is fin → Flow dir r av is fin

/-- The header works out by itself. -/
def Good (p : Place) (c : List Item) : Prop :=
  ∃ fin, Flow w rank cover need prov Fine p.dir (rank p) (need p) c fin ∧ ∀ k ∈ prov p, k ∈ fin

variable {w rank cover need prov Fine}

/-- What holds before the lines of a file of rank `r`. -/
structure Ready (r : Nat) (s : State) : Prop where
  seen : ∀ g ∈ s.seen, rank g < r → ∀ k ∈ prov g, ∀ x ∈ cover k, x ∈ s.known
  fine : ∀ x ∈ s.known, Fine x

/-- What holds after more lines. -/
structure More (s s' : State) : Prop where
  known : ∀ x ∈ s.known, x ∈ s'.known
  seen : ∀ g ∈ s'.seen, g ∈ s.seen ∨ ∀ k ∈ prov g, ∀ x ∈ cover k, x ∈ s'.known
  fine : ∀ x ∈ s'.known, Fine x

theorem Ready.more {r : Nat} {s s' : State} (h : Ready (rank := rank) (cover := cover) (prov := prov) (Fine := Fine) r s)
    (m : More (cover := cover) (prov := prov) (Fine := Fine) s s') :
    Ready (rank := rank) (cover := cover) (prov := prov) (Fine := Fine) r s' := by
  refine ⟨fun g hg hr k hk x hx => ?_, m.fine⟩
  rcases m.seen g hg with h1 | h1
  · exact m.known x (h.seen g h1 hr k hk x hx)
  · exact h1 k hk x hx

theorem More.trans {s1 s2 s3 : State} (h1 : More (cover := cover) (prov := prov) (Fine := Fine) s1 s2)
    (h2 : More (cover := cover) (prov := prov) (Fine := Fine) s2 s3) : More (cover := cover) (prov := prov) (Fine := Fine) s1 s3 := by
  refine ⟨fun x hx => h2.known x (h1.known x hx), fun g hg => ?_, h2.fine⟩
  rcases h2.seen g hg with h | h
  · rcases h1.seen g h with h | h
    · exact Or.inl h
    · exact Or.inr fun k hk x hx => h2.known x (h k hk x hx)
  · exact Or.inr h

/-- The lines of a file, if includes of lower rank work. -/
theorem walk_flow {dir : Option CStr} {r : Nat} {inc : Bool → CStr → State → Res State}
    (hinc : ∀ sys name p c s, find w dir sys name = some (p, c) → rank p < r → Item.once ∈ c →
      Ready (rank := rank) (cover := cover) (prov := prov) (Fine := Fine) r s →
      (∀ k ∈ need p, ∀ x ∈ cover k, x ∈ s.known) →
      ∃ s', inc sys name s = .ok s' ∧ More (cover := cover) (prov := prov) (Fine := Fine) s s' ∧ ∀ k ∈ prov p, ∀ x ∈ cover k, x ∈ s'.known)
    {av fin : List K} {is : List Item} (hf : Flow w rank cover need prov Fine dir r av is fin) :
    ∀ s, Ready (rank := rank) (cover := cover) (prov := prov) (Fine := Fine) r s → (∀ k ∈ av, ∀ x ∈ cover k, x ∈ s.known) →
      ∃ s', walk inc is s = .ok s' ∧ More (cover := cover) (prov := prov) (Fine := Fine) s s' ∧ ∀ k ∈ fin, ∀ x ∈ cover k, x ∈ s'.known := by
  induction hf with
  | nil => exact fun s hs ha => ⟨s, rfl, ⟨fun _ h => h, fun _ h => Or.inl h, hs.fine⟩, ha⟩
  | once _ ih => exact ih
  | incl hfind hr ho hn _ ih =>
    intro s hs ha
    obtain ⟨s1, h1, m1, p1⟩ := hinc _ _ _ _ s hfind hr ho hs fun k hk => ha k (hn k hk)
    obtain ⟨s2, h2, m2, p2⟩ := ih s1 (hs.more m1) fun k hk x hx => by
      rcases List.mem_append.1 hk with h | h
      · exact m1.known x (ha k h x hx)
      · exact p1 k h x hx
    exact ⟨s2, by rw [walk, h1]; exact h2, m1.trans m2, p2⟩
  | on hu hfind hr ho hn _ ih =>
    intro s hs ha
    obtain ⟨s1, h1, m1, p1⟩ := hinc _ _ _ _ s hfind hr ho hs fun k hk => ha k (hn k hk)
    obtain ⟨s2, h2, m2, p2⟩ := ih s1 (hs.more m1) fun k hk x hx => by
      rcases List.mem_append.1 hk with h | h
      · exact m1.known x (ha k h x hx)
      · exact p1 k h x hx
    obtain ⟨k, hk, hx⟩ := hu
    exact ⟨s2, by rw [walk, if_pos (ha k hk _ hx), h1]; exact h2, m1.trans m2, p2⟩
  | off hu hl _ ih =>
    intro s hs ha
    obtain ⟨s2, h2, m2, p2⟩ := ih s hs fun k hk x hx => by
      rcases List.mem_append.1 hk with h | h
      · exact ha k h x hx
      · rw [hl k h] at hx; cases hx
    exact ⟨s2, by rw [walk, if_neg fun h => hu (hs.fine _ h)]; exact h2, m2, p2⟩
  | @text av fin l is ds us hd hu hl _ ih =>
    intro s hs ha
    have m1 : More (cover := cover) (prov := prov) (Fine := Fine) s { s with known := s.known ++ ds } :=
      ⟨fun x hx => List.mem_append_left _ hx, fun _ h => Or.inl h, fun x hx => (List.mem_append.1 hx).elim (hs.fine x) (hd x)⟩
    obtain ⟨s2, h2, m2, p2⟩ := ih _ (hs.more m1) fun k hk x hx => by
      rcases List.mem_append.1 hk with h | h
      · exact List.mem_append_left _ (ha k h x hx)
      · exact List.mem_append_right _ (hl k h x hx)
    exact ⟨s2, by
      rw [walk, if_pos fun x hx => ?_]
      · exact h2
      · obtain ⟨k, hk, hy⟩ := hu x hx
        exact ha k hk x hy, m1.trans m2, p2⟩
  | also k hk _ ih =>
    intro s hs ha
    exact ih s hs fun j hj x hx => by
      rcases List.mem_append.1 hj with h | h
      · exact ha j h x hx
      · rw [List.mem_singleton.1 h] at hx
        obtain ⟨i, hi, hy⟩ := hk x hx
        exact ha i hi x hy

/-- Includes of good headers work. -/
theorem includes_flow {top : Nat} (hg : ∀ p c, At w p c → rank p < top → Item.once ∈ c → Good w rank cover need prov Fine p c) :
    ∀ (n : Nat) (dir : Option CStr) (r : Nat) sys name p c s, r ≤ top → rank p < n → find w dir sys name = some (p, c) → rank p < r → Item.once ∈ c →
      Ready (rank := rank) (cover := cover) (prov := prov) (Fine := Fine) r s →
      (∀ k ∈ need p, ∀ x ∈ cover k, x ∈ s.known) →
      ∃ s', includes w n dir sys name s = .ok s' ∧ More (cover := cover) (prov := prov) (Fine := Fine) s s' ∧
        ∀ k ∈ prov p, ∀ x ∈ cover k, x ∈ s'.known := by
  intro n
  induction n with
  | zero => exact fun _ _ _ _ _ _ _ _ h => absurd h (Nat.not_lt_zero _)
  | succ n ih =>
    intro dir r sys name p c s hrt hn hf hr ho hs ha
    by_cases hp : p ∈ s.seen
    · exact ⟨s, by rw [includes, hf]; exact if_pos ⟨hp, ho⟩, ⟨fun _ h => h, fun _ h => Or.inl h, hs.fine⟩, hs.seen p hp hr⟩
    obtain ⟨fin, fl, hfin⟩ := hg p c (find_at hf) (Nat.lt_of_lt_of_le hr hrt) ho
    obtain ⟨s', h1, m1, p1⟩ := walk_flow (inc := includes w n p.dir)
      (fun sys name q d s1 hq hqr hqo hs1 hqa => ih p.dir (rank p) sys name q d s1 (Nat.le_of_lt (Nat.lt_of_lt_of_le hr hrt))
        (Nat.lt_of_lt_of_le hqr (Nat.le_of_lt_succ hn)) hq hqr hqo hs1 hqa) fl { s with seen := p :: s.seen }
      ⟨fun g hg hgr k hk x hx => by
        rcases List.mem_cons.1 hg with rfl | hg
        · exact absurd hgr (Nat.lt_irrefl _)
        · exact hs.seen g hg (Nat.lt_trans hgr hr) k hk x hx, hs.fine⟩ ha
    have hprov : ∀ k ∈ prov p, ∀ x ∈ cover k, x ∈ s'.known := fun k hk => p1 k (hfin k hk)
    refine ⟨s', by rw [includes, hf]; exact (if_neg fun h => hp h.1).trans h1, ⟨m1.known, fun g hg => ?_, m1.fine⟩, hprov⟩
    rcases m1.seen g hg with h | h
    · rcases List.mem_cons.1 h with rfl | h
      · exact Or.inr hprov
      · exact Or.inl h
    · exact Or.inr h

/-- A source file works, if its lines and the headers do. -/
theorem translates_of {top : Nat} (hg : ∀ p c, At w p c → rank p < top → Item.once ∈ c → Good w rank cover need prov Fine p c) {path : CStr}
    {c : List Item} (hc : w.file path = some c) (hr : top ≤ rank (.made path)) {fin : List K}
    (hf : Flow w rank cover need prov Fine (some (folder path)) top [] c fin) : Translates w path := by
  obtain ⟨s', h, _⟩ := walk_flow (inc := includes w top (some (folder path)))
    (fun sys name p c s hq hr ho hs ha => includes_flow hg top _ top sys name p c s (Nat.le_refl _) hr hq hr ho hs ha)
    hf ⟨[.made path], []⟩
    ⟨fun g hg hgr => by
      rw [List.mem_singleton.1 hg] at hgr
      exact absurd hgr (Nat.not_lt.2 hr), fun x hx => by cases hx⟩
    (fun k hk => by cases hk)
  exact ⟨top, s', by rw [translate, hc]; exact h⟩

end

/-! ## What cannot be known -/

/-- The lines include files of `R` only, and declare words of `D` only. -/
structure Closed (w : World) (R : Place → Prop) (D : Sym → Prop) (dir : Option CStr) (c : List Item) : Prop where
  incl : ∀ sys name, Item.incl sys name ∈ c → ∀ p d, find w dir sys name = some (p, d) → R p
  cond : ∀ name, Item.ifUnsafe name ∈ c → ∀ p d, find w dir false name = some (p, d) → R p
  decls : ∀ ds us, Item.text ds us ∈ c → ∀ x ∈ ds, D x

/-- The lines were read: they use words of `D` only, and the files they include were read. -/
structure Done (w : World) (D : Sym → Prop) (seen : List Place) (dir : Option CStr) (c : List Item) : Prop where
  uses : ∀ ds us, Item.text ds us ∈ c → ∀ x ∈ us, D x
  incl : ∀ sys name, Item.incl sys name ∈ c → ∀ p d, find w dir sys name = some (p, d) → p ∈ seen

theorem Done.mono {w : World} {D : Sym → Prop} {l m : List Place} {dir : Option CStr} {c : List Item} (h : Done w D l dir c) (hm : ∀ g ∈ l, g ∈ m) :
    Done w D m dir c := ⟨h.uses, fun s n hi p d hf => hm p (h.incl s n hi p d hf)⟩

/-- What holds after more lines. -/
structure Bound (w : World) (D : Sym → Prop) (s s' : State) : Prop where
  known : ∀ x ∈ s'.known, D x
  seen : ∀ g ∈ s.seen, g ∈ s'.seen
  done : ∀ g ∈ s'.seen, g ∈ s.seen ∨ ∀ c, At w g c → Done w D s'.seen g.dir c

theorem Bound.refl {w : World} {D : Sym → Prop} {s : State} (h : ∀ x ∈ s.known, D x) : Bound w D s s :=
  ⟨h, fun _ h => h, fun _ h => Or.inl h⟩

theorem Bound.trans {w : World} {D : Sym → Prop} {s1 s2 s3 : State} (h : Bound w D s1 s2) (h' : Bound w D s2 s3) : Bound w D s1 s3 := by
  refine ⟨h'.known, fun g hg => h'.seen g (h.seen g hg), fun g hg => ?_⟩
  rcases h'.done g hg with hg | hg
  · rcases h.done g hg with hg | hg
    · exact Or.inl hg
    · exact Or.inr fun c hc => (hg c hc).mono h'.seen
  · exact Or.inr hg

theorem walk_bound {w : World} {R : Place → Prop} {D : Sym → Prop} {dir : Option CStr} {inc : Bool → CStr → State → Res State}
    (hinc : ∀ sys name s s', (∀ p d, find w dir sys name = some (p, d) → R p) → (∀ x ∈ s.known, D x) → inc sys name s = .ok s' →
      Bound w D s s' ∧ ∀ p d, find w dir sys name = some (p, d) → p ∈ s'.seen) : ∀ {c : List Item}, Closed w R D dir c → ∀ {s s' : State},
      (∀ x ∈ s.known, D x) → walk inc c s = .ok s' → Bound w D s s' ∧ Done w D s'.seen dir c
  | [], _, s, s', hs, h => by
    cases h
    exact ⟨.refl hs, fun _ _ h => (by cases h), fun _ _ h => (by cases h)⟩
  | i :: c, hc, s, s', hs, h => by
    have hc' : Closed w R D dir c := ⟨fun s n h => hc.incl s n (List.mem_cons_of_mem _ h), fun n h => hc.cond n (List.mem_cons_of_mem _ h),
      fun ds us h => hc.decls ds us (List.mem_cons_of_mem _ h)⟩
    have rest : ∀ {s1 : State}, Bound w D s s1 → walk inc c s1 = .ok s' → (∀ ds us, i = .text ds us → ∀ x ∈ us, D x) →
        (∀ sys name, i = .incl sys name → ∀ p d, find w dir sys name = some (p, d) → p ∈ s1.seen) →
        Bound w D s s' ∧ Done w D s'.seen dir (i :: c) := by
      intro s1 h1 h2 h3 h4
      obtain ⟨b, dn⟩ := walk_bound hinc hc' h1.known h2
      refine ⟨h1.trans b, fun ds us h => ?_, fun sys name h p d hf => ?_⟩
      · rcases List.mem_cons.1 h with h | h
        · exact h3 ds us h.symm
        · exact dn.uses ds us h
      · rcases List.mem_cons.1 h with h | h
        · exact b.seen p (h4 sys name h.symm p d hf)
        · exact dn.incl sys name h p d hf
    cases i with
    | once => exact rest (.refl hs) h (fun _ _ h => by cases h) (fun _ _ h => by cases h)
    | incl sys name =>
      rw [walk] at h
      obtain ⟨s1, h1, h2⟩ := Res.bind_eq_ok.1 h
      obtain ⟨b, hp⟩ := hinc sys name s s1 (hc.incl _ _ List.mem_cons_self) hs h1
      exact rest b h2 (fun _ _ h => by cases h) fun _ _ h => by cases h; exact hp
    | ifUnsafe name =>
      rw [walk] at h
      split at h
      · obtain ⟨s1, h1, h2⟩ := Res.bind_eq_ok.1 h
        exact rest (hinc false name s s1 (hc.cond _ List.mem_cons_self) hs h1).1 h2 (fun _ _ h => by cases h) (fun _ _ h => by cases h)
      · exact rest (.refl hs) h (fun _ _ h => by cases h) (fun _ _ h => by cases h)
    | text ds us =>
      rw [walk] at h
      split at h
      · rename_i hu
        refine rest (s1 := ⟨s.seen, s.known ++ ds⟩) ⟨fun x hx => ?_, fun _ h => h, fun _ h => Or.inl h⟩ h (fun ds' us' h' x hx => ?_) (fun _ _ h => by cases h)
        · rcases List.mem_append.1 hx with hx | hx
          · exact hs x hx
          · exact hc.decls ds us List.mem_cons_self x hx
        · cases h'
          exact hs x (hu x hx)
      · cases h

theorem includes_bound {w : World} {R : Place → Prop} {D : Sym → Prop} (hR : ∀ p c, R p → At w p c → Closed w R D p.dir c) :
    ∀ (n : Nat) (dir : Option CStr) sys name s s', (∀ p d, find w dir sys name = some (p, d) → R p) → (∀ x ∈ s.known, D x) →
      includes w n dir sys name s = .ok s' → Bound w D s s' ∧ ∀ p d, find w dir sys name = some (p, d) → p ∈ s'.seen := by
  intro n
  induction n with
  | zero => intro dir sys name s s' _ _ h; cases h
  | succ n ih =>
    intro dir sys name s s' hf hs h
    rw [includes] at h
    cases hq : find w dir sys name with
    | none => rw [hq] at h; cases h
    | some x =>
      obtain ⟨p, c⟩ := x
      rw [hq] at h
      dsimp only at h
      split at h
      · rename_i hp
        cases h
        exact ⟨.refl hs, fun q d e => by cases e; exact hp.1⟩
      · obtain ⟨b, dn⟩ := walk_bound (ih p.dir) (hR p c (hf p c hq) (find_at hq)) (s := ⟨p :: s.seen, s.known⟩) hs h
        refine ⟨⟨b.known, fun g hg => b.seen g (List.mem_cons_of_mem _ hg), fun g hg => ?_⟩, fun q d e => ?_⟩
        · rcases b.done g hg with hg | hg
          · rcases List.mem_cons.1 hg with rfl | hg
            · exact Or.inr fun d hd => by rw [at_inj hd (find_at hq)]; exact dn
            · exact Or.inl hg
          · exact Or.inr hg
        · cases e
          exact b.seen p List.mem_cons_self

theorem walk_append {inc : Bool → CStr → State → Res State} : ∀ {a b : List Item} {s s' : State}, walk inc (a ++ b) s = .ok s' →
    ∃ s1, walk inc a s = .ok s1 ∧ walk inc b s1 = .ok s'
  | [], b, s, s', h => ⟨s, rfl, h⟩
  | i :: a, b, s, s', h => by
    rw [List.cons_append] at h
    cases i with
    | once => exact walk_append (a := a) h
    | incl sys name =>
      rw [walk] at h
      obtain ⟨s1, h1, h2⟩ := Res.bind_eq_ok.1 h
      obtain ⟨s2, h3, h4⟩ := walk_append h2
      exact ⟨s2, by rw [walk, h1]; exact h3, h4⟩
    | ifUnsafe name =>
      rw [walk] at h
      split at h
      · rename_i hu
        obtain ⟨s1, h1, h2⟩ := Res.bind_eq_ok.1 h
        obtain ⟨s2, h3, h4⟩ := walk_append h2
        exact ⟨s2, by rw [walk, if_pos hu, h1]; exact h3, h4⟩
      · rename_i hu
        obtain ⟨s2, h3, h4⟩ := walk_append h
        exact ⟨s2, by rw [walk, if_neg hu]; exact h3, h4⟩
    | text ds us =>
      rw [walk] at h
      split at h
      · rename_i hu
        obtain ⟨s2, h3, h4⟩ := walk_append h
        exact ⟨s2, by rw [walk, if_pos hu]; exact h3, h4⟩
      · cases h

/-- What the first lines of a source file read. -/
theorem translates_done {w : World} {R : Place → Prop} {D : Sym → Prop} (hR : ∀ p c, R p → At w p c → Closed w R D p.dir c) {path : CStr}
    {a b : List Item} (hc : w.file path = some (a ++ b)) (ha : Closed w R D (some (folder path)) a) (h : Translates w path) :
    ∃ s : State, (∀ g ∈ s.seen, g = .made path ∨ ∀ c, At w g c → Done w D s.seen g.dir c) ∧ Done w D s.seen (some (folder path)) a := by
  obtain ⟨fuel, s, h⟩ := h
  rw [translate, hc] at h
  obtain ⟨s1, h1, _⟩ := walk_append h
  obtain ⟨b1, d1⟩ := walk_bound (includes_bound hR fuel _) ha (s := ⟨[.made path], []⟩) (fun x hx => by cases hx) h1
  exact ⟨s1, fun g hg => (b1.done g hg).imp (fun h => List.mem_singleton.1 h) id, d1⟩

/-- A file that includes one that is not there does not work. -/
theorem not_found {w : World} {path : CStr} {c : List Item} (hc : w.file path = some c) {name : CStr} {d e : List Item}
    (hd : c = d ++ .incl false name :: e) (hf : find w (some (folder path)) false name = none) : ¬ Translates w path := by
  rintro ⟨fuel, s, h⟩
  rw [translate, hc] at h
  subst hd
  obtain ⟨s1, _, h2⟩ := walk_append h
  rw [walk] at h2
  obtain ⟨s2, h3, _⟩ := Res.bind_eq_ok.1 h2
  cases fuel with
  | zero => cases h3
  | succ n =>
    rw [includes, hf] at h3
    cases h3

/-! ## Depth -/

theorem walk_more {f g : Bool → CStr → State → Res State} (h : ∀ b n s, f b n s ≠ .diverge → g b n s = f b n s) : ∀ (c : List Item) (s : State),
    walk f c s ≠ .diverge → walk g c s = walk f c s
  | [], _, _ => rfl
  | .once :: c, s, hd => walk_more h c s hd
  | .incl b n :: c, s, hd => by
    rw [walk] at hd ⊢
    rw [walk]
    cases hf : f b n s with
    | diverge => rw [hf] at hd; exact absurd rfl hd
    | ok s1 =>
      rw [hf] at hd
      rw [h b n s (by rw [hf]; exact nofun), hf]
      exact walk_more h c s1 hd
    | ub e => rw [h b n s (by rw [hf]; exact nofun), hf]; rfl
    | abort e => rw [h b n s (by rw [hf]; exact nofun), hf]; rfl
  | .ifUnsafe n :: c, s, hd => by
    rw [walk] at hd ⊢
    rw [walk]
    split
    · rename_i hu
      rw [if_pos hu] at hd
      cases hf : f false n s with
      | diverge => rw [hf] at hd; exact absurd rfl hd
      | ok s1 =>
        rw [hf] at hd
        rw [h false n s (by rw [hf]; exact nofun), hf]
        exact walk_more h c s1 hd
      | ub e => rw [h false n s (by rw [hf]; exact nofun), hf]; rfl
      | abort e => rw [h false n s (by rw [hf]; exact nofun), hf]; rfl
    · rename_i hu
      rw [if_neg hu] at hd
      exact walk_more h c s hd
  | .text ds us :: c, s, hd => by
    rw [walk] at hd ⊢
    rw [walk]
    split
    · rename_i hu
      rw [if_pos hu] at hd
      exact walk_more h c _ hd
    · rfl

theorem includes_more (w : World) : ∀ (n : Nat) (dir : Option CStr) b name s, includes w n dir b name s ≠ .diverge →
    includes w (n + 1) dir b name s = includes w n dir b name s
  | 0, _, _, _, _, h => absurd rfl h
  | n + 1, dir, b, name, s, h => by
    rw [includes] at h ⊢
    rw [includes]
    cases hf : find w dir b name with
    | none => rfl
    | some x =>
      rw [hf] at h
      dsimp only at h ⊢
      split
      · rfl
      · rename_i hs
        rw [if_neg hs] at h
        exact walk_more (includes_more w n x.1.dir) _ _ h

theorem translate_more {w : World} {path : CStr} {n : Nat} (h : translate w n path ≠ .diverge) : ∀ m, translate w (n + m) path = translate w n path
  | 0 => rfl
  | m + 1 => by
    rw [← translate_more h m]
    have h' : translate w (n + m) path ≠ .diverge := by rw [translate_more h m]; exact h
    unfold translate at h' ⊢
    cases hc : w.file path with
    | none => rfl
    | some c =>
      rw [hc] at h'
      exact walk_more (includes_more w (n + m) _) _ _ h'

/-- An error at some depth is an error. -/
theorem not_translates {w : World} {path : CStr} {n : Nat} {e : String} (h : translate w n path = .abort e) : ¬ Translates w path := by
  rintro ⟨m, s, hm⟩
  have h1 := translate_more (w := w) (path := path) (n := n) (by rw [h]; exact nofun) m
  have h2 := translate_more (w := w) (path := path) (n := m) (by rw [hm]; exact nofun) n
  rw [Nat.add_comm, h2, hm, h] at h1
  cases h1

end Verif.Spec.GenFiles
