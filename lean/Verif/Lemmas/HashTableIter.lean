import Verif.Lemmas.HashTable

/-! # Helper lemmas for hash table iteration -/

namespace Verif.HT
open Verif.Spec

variable {K V : Type}

/-- Table `t` with its chains replaced. -/
abbrev withB (t : Table K V) (b : List (List (Entry K V))) : Table K V := { t with buckets := b }

theorem scan_append (i : Nat) (es : List (List (Entry K V))) (h : ∀ c ∈ es, c = []) (r) :
    scan i (es ++ r) = scan (i + es.length) r := by
  induction es generalizing i with
  | nil => rfl
  | cons c es ih =>
    have hc : c = [] := h c (by simp)
    subst hc
    simp only [List.cons_append, scan, List.isEmpty_nil, if_true]
    rw [ih _ (fun c hc => h c (by simp [hc]))]
    congr 1; simp; omega

theorem split_empties (post : List (List (Entry K V))) :
    (∀ c ∈ post, c = []) ∨ ∃ es e c post', (∀ c ∈ es, c = []) ∧ post = es ++ (e :: c) :: post' := by
  induction post with
  | nil => left; simp
  | cons a post ih =>
    cases a with
    | cons e c => right; exact ⟨[], e, c, post, by simp, rfl⟩
    | nil =>
      rcases ih with h | ⟨es, e, c, post', h1, rfl⟩
      · left; intro c hc; simp at hc; rcases hc with rfl | hc
        · rfl
        · exact h c hc
      · right
        refine ⟨[] :: es, e, c, post', ?_, rfl⟩
        intro c hc; simp at hc; rcases hc with rfl | hc
        · rfl
        · exact h1 c hc

theorem scan_empties (i : Nat) (es : List (List (Entry K V))) (h : ∀ c ∈ es, c = []) : scan i es = none := by
  have := scan_append i es h []
  simpa [scan] using this

theorem flatten_empties (es : List (List (Entry K V))) (h : ∀ c ∈ es, c = []) : es.flatten = [] := by
  simpa using h

theorem map_empties (es : List (List (Entry K V))) (h : ∀ c ∈ es, c = []) (f : Entry K V → Entry K V) :
    es.map (List.map f) = es := by
  conv => rhs; rw [← List.map_id es]
  apply List.map_congr_left
  intro c hc
  simp [h c hc]

theorem entryAt_mid (t : Table K V) (pre) (c1 : List (Entry K V)) (e) (c2) (post) :
    entryAt (withB t (pre ++ (c1 ++ e :: c2) :: post)) ⟨pre.length, c1.length⟩ = some e := by
  simp [entryAt]

theorem next_mid_some (t : Table K V) (pre) (c1 : List (Entry K V)) (e) (e') (c2) (post) :
    HTiterateNext (withB t (pre ++ (c1 ++ e :: e' :: c2) :: post)) ⟨pre.length, c1.length⟩ =
      .ok (some ⟨pre.length, (c1 ++ [e]).length⟩) := by
  have h2 : entryAt (withB t (pre ++ (c1 ++ e :: e' :: c2) :: post)) ⟨pre.length, c1.length + 1⟩ = some e' := by
    have := entryAt_mid t pre (c1 ++ [e]) e' c2 post
    simpa using this
  simp only [HTiterateNext, entryAt_mid, h2]
  simp

theorem next_mid_none (t : Table K V) (pre) (c1 : List (Entry K V)) (e) (post) :
    HTiterateNext (withB t (pre ++ (c1 ++ [e]) :: post)) ⟨pre.length, c1.length⟩ =
      .ok (scan (pre.length + 1) post) := by
  have h2 : entryAt (withB t (pre ++ (c1 ++ [e]) :: post)) ⟨pre.length, c1.length + 1⟩ = none := by
    simp [entryAt]
  have h1 := entryAt_mid t pre c1 e [] post
  simp only [HTiterateNext, h1, h2]
  congr 2
  simp [List.drop_append]

/-- `foldl` in `Res`. -/
def foldRes {S E : Type} (g : S → E → Res S) : S → List E → Res S
  | s, [] => .ok s
  | s, e :: es => do
    let s' ← g s e
    foldRes g s' es

/-- A loop whose body only reads the current entry folds over the remaining entries. -/
theorem iterLoop_read {S : Type} (t : Table K V) (g : S → Entry K V → Res S)
    (body : Table K V × S → Iter → Res (Table K V × S))
    (hbody : ∀ t' : Table K V, ∀ s it e, entryAt t' it = some e → body (t', s) it = (g s e).bind (fun s' => .ok (t', s')))
    (n : Nat) : ∀ (pre) (c1 : List (Entry K V)) (e c2 post) (s : S) (fuel : Nat),
      c2.length + post.flatten.length = n → n < fuel →
      iterLoop body fuel (withB t (pre ++ (c1 ++ e :: c2) :: post), s) (some ⟨pre.length, c1.length⟩) =
        (foldRes g s (e :: c2 ++ post.flatten)).bind
          (fun s' => .ok (withB t (pre ++ (c1 ++ e :: c2) :: post), s')) := by
  induction n with
  | zero =>
    intro pre c1 e c2 post s fuel hn hf
    obtain ⟨fuel, rfl⟩ : ∃ k, fuel = k + 1 := ⟨fuel - 1, by omega⟩
    have hc2 : c2 = [] := List.eq_nil_of_length_eq_zero (by omega)
    have hpo : post.flatten = [] := List.eq_nil_of_length_eq_zero (by omega)
    subst hc2
    have hpe : ∀ c ∈ post, c = [] := by simpa using hpo
    simp only [iterLoop, hbody _ _ _ _ (entryAt_mid t pre c1 e [] post)]
    cases hg : g s e with
    | ok s' =>
      simp only [Res.bind, Res.bind_ok, next_mid_none, scan_empties _ _ hpe, hpo, foldRes,
        List.nil_append, List.cons_append, hg, iterLoop]
    | ub w => simp [Res.bind, foldRes, hg]
    | abort w => simp [Res.bind, foldRes, hg]
    | diverge => simp [Res.bind, foldRes, hg]
  | succ n ih =>
    intro pre c1 e c2 post s fuel hn hf
    obtain ⟨fuel, rfl⟩ : ∃ k, fuel = k + 1 := ⟨fuel - 1, by omega⟩
    simp only [iterLoop, hbody _ _ _ _ (entryAt_mid t pre c1 e c2 post)]
    cases hg : g s e with
    | ub w => simp [Res.bind, foldRes, hg]
    | abort w => simp [Res.bind, foldRes, hg]
    | diverge => simp [Res.bind, foldRes, hg]
    | ok s' =>
      simp only [Res.bind, Res.bind_ok, foldRes, List.cons_append, hg]
      cases c2 with
      | cons e' c2 =>
        rw [next_mid_some]
        have hb : pre ++ (c1 ++ e :: e' :: c2) :: post = pre ++ ((c1 ++ [e]) ++ e' :: c2) :: post := by simp
        simp only [Res.bind_ok]
        rw [hb]
        rw [ih pre (c1 ++ [e]) e' c2 post s' fuel (by simp at hn ⊢; omega) (by omega)]
        simp [Res.bind]
      | nil =>
        rw [next_mid_none]
        rcases split_empties post with hpe | ⟨es, e', c', post', hes, rfl⟩
        · rw [scan_empties _ _ hpe, flatten_empties _ hpe]
          simp [iterLoop, foldRes]
        · rw [scan_append _ _ hes]
          have hsc : scan (pre.length + 1 + es.length) ((e' :: c') :: post') =
              some ⟨(pre ++ [c1 ++ [e]] ++ es).length, ([] : List (Entry K V)).length⟩ := by
            simp [scan]; omega
          rw [hsc]
          have hb : pre ++ (c1 ++ [e]) :: (es ++ (e' :: c') :: post') =
              (pre ++ [c1 ++ [e]] ++ es) ++ ([] ++ e' :: c') :: post' := by simp
          simp only [Res.bind_ok]
          rw [hb]
          rw [ih _ _ e' c' post' s' fuel (by rw [List.flatten_append, flatten_empties _ hes] at hn; simp at hn ⊢; omega) (by omega)]
          have := flatten_empties _ hes
          simp [Res.bind, this]

theorem modify_mid {α : Type} (l : List α) (a : α) (r : List α) (f : α → α) :
    (l ++ a :: r).modify l.length f = l ++ f a :: r := by
  induction l with
  | nil => rfl
  | cons b l ih => simpa using ih

theorem set_mid (t : Table K V) (pre) (c1 : List (Entry K V)) (e) (c2) (post) (v : Option V) :
    HTiterSetValue (withB t (pre ++ (c1 ++ e :: c2) :: post)) ⟨pre.length, c1.length⟩ v =
      .ok (withB t (pre ++ (c1 ++ (e.1, v) :: c2) :: post)) := by
  simp only [HTiterSetValue, entryAt_mid]
  congr 2
  rw [modify_mid, modify_mid]

/-- The body of `iterUpdate`. -/
def updBody (f : K → Option V → Option V) : Table K V × Unit → Iter → Res (Table K V × Unit) :=
  fun (t, _) it => do
    let k ← HTiterKey t it
    let v ← HTiterValue t it
    let t' ← HTiterSetValue t it (f k v)
    .ok (t', ())

theorem updBody_mid (t : Table K V) (f : K → Option V → Option V) (pre) (c1 : List (Entry K V)) (e) (c2) (post) :
    updBody f (withB t (pre ++ (c1 ++ e :: c2) :: post), ()) ⟨pre.length, c1.length⟩ =
      .ok (withB t (pre ++ (c1 ++ (e.1, f e.1 e.2) :: c2) :: post), ()) := by
  simp only [updBody, HTiterKey, HTiterValue, entryAt_mid, Res.bind_ok, set_mid]

theorem iterLoop_upd (t : Table K V) (f : K → Option V → Option V)
    (n : Nat) : ∀ (pre) (c1 : List (Entry K V)) (e c2 post) (fuel : Nat),
      c2.length + post.flatten.length = n → n < fuel →
      iterLoop (updBody f) fuel (withB t (pre ++ (c1 ++ e :: c2) :: post), ()) (some ⟨pre.length, c1.length⟩) =
        .ok (withB t (pre ++ (c1 ++ (e :: c2).map (fun e => (e.1, f e.1 e.2))) ::
          post.map (List.map (fun e => (e.1, f e.1 e.2)))), ()) := by
  induction n with
  | zero =>
    intro pre c1 e c2 post fuel hn hf
    obtain ⟨fuel, rfl⟩ : ∃ k, fuel = k + 1 := ⟨fuel - 1, by omega⟩
    have hc2 : c2 = [] := List.eq_nil_of_length_eq_zero (by omega)
    have hpo : post.flatten = [] := List.eq_nil_of_length_eq_zero (by omega)
    subst hc2
    have hpe : ∀ c ∈ post, c = [] := by simpa using hpo
    simp only [iterLoop, updBody_mid, Res.bind_ok, next_mid_none, scan_empties _ _ hpe, map_empties _ hpe]
    simp
  | succ n ih =>
    intro pre c1 e c2 post fuel hn hf
    obtain ⟨fuel, rfl⟩ : ∃ k, fuel = k + 1 := ⟨fuel - 1, by omega⟩
    simp only [iterLoop, updBody_mid, Res.bind_ok]
    cases c2 with
    | cons e' c2 =>
      rw [next_mid_some]
      have hb : pre ++ (c1 ++ (e.1, f e.1 e.2) :: e' :: c2) :: post =
          pre ++ ((c1 ++ [(e.1, f e.1 e.2)]) ++ e' :: c2) :: post := by simp
      simp only [Res.bind_ok]
      rw [hb]
      rw [ih pre (c1 ++ [(e.1, f e.1 e.2)]) e' c2 post fuel (by simp at hn ⊢; omega) (by omega)]
      simp
    | nil =>
      rw [next_mid_none]
      rcases split_empties post with hpe | ⟨es, e', c', post', hes, rfl⟩
      · rw [scan_empties _ _ hpe, map_empties _ hpe]
        simp [iterLoop]
      · rw [scan_append _ _ hes]
        have hsc : scan (pre.length + 1 + es.length) ((e' :: c') :: post') =
            some ⟨(pre ++ [c1 ++ [(e.1, f e.1 e.2)]] ++ es).length, ([] : List (Entry K V)).length⟩ := by
          simp [scan]; omega
        rw [hsc]
        have hb : pre ++ (c1 ++ [(e.1, f e.1 e.2)]) :: (es ++ (e' :: c') :: post') =
            (pre ++ [c1 ++ [(e.1, f e.1 e.2)]] ++ es) ++ ([] ++ e' :: c') :: post' := by simp
        simp only [Res.bind_ok]
        rw [hb]
        rw [ih _ _ e' c' post' fuel (by rw [List.flatten_append, flatten_empties _ hes] at hn; simp at hn ⊢; omega) (by omega)]
        rw [List.map_append, map_empties _ hes]
        simp

theorem iterate_cases (t : Table K V) :
    (t.elements = 0 ∧ HTiterate t = .ok none) ∨
    (t.elements ≠ 0 ∧ (∀ c ∈ t.buckets, c = []) ∧ ∃ w, HTiterate t = .abort w) ∨
    (t.elements ≠ 0 ∧ ∃ es e c post, (∀ c ∈ es, c = []) ∧ t.buckets = es ++ (e :: c) :: post ∧
      HTiterate t = .ok (some ⟨es.length, 0⟩)) := by
  by_cases h0 : t.elements = 0
  · left; exact ⟨h0, by simp [HTiterate, h0]⟩
  · right
    rcases split_empties t.buckets with hpe | ⟨es, e, c, post, hes, hb⟩
    · left; refine ⟨h0, hpe, "assert(iterator->current_entry != NULL)", ?_⟩
      simp only [HTiterate, h0, if_false, scan_empties _ _ hpe]
    · right; refine ⟨h0, es, e, c, post, hes, hb, ?_⟩
      simp only [HTiterate, h0, if_false, hb, scan_append _ _ hes]
      simp [scan]

theorem chainTotal_eq (t : Table K V) : chainTotal t = t.buckets.flatten.length := by
  simp [chainTotal, List.length_flatten]

/-- A read-only client loop folds over all entries, provided the counter is zero only for an empty table. -/
theorem forEach_read {S : Type} (t : Table K V) (g : S → Entry K V → Res S)
    (body : Table K V × S → Iter → Res (Table K V × S))
    (hbody : ∀ t' : Table K V, ∀ s it e, entryAt t' it = some e → body (t', s) it = (g s e).bind (fun s' => .ok (t', s')))
    (hc : t.elements = 0 ↔ flat t = []) (s : S) :
    forEach t s body = (foldRes g s (flat t)).bind (fun s' => .ok (t, s')) := by
  rcases iterate_cases t with ⟨h0, hi⟩ | ⟨h0, hpe, w, hi⟩ | ⟨h0, es, e, c, post, hes, hb, hi⟩
  · simp only [forEach, hi, Res.bind_ok, iterLoop, hc.mp h0, foldRes, Res.bind]
  · exact absurd (hc.mpr (flatten_empties _ hpe)) h0
  · simp only [forEach, hi, Res.bind_ok]
    have hfl : flat t = e :: c ++ post.flatten := by
      simp only [flat, hb, List.flatten_append, flatten_empties _ hes]; simp
    have := iterLoop_read t g body hbody (c.length + post.flatten.length) es [] e c post s (chainTotal t) rfl
      (by rw [chainTotal_eq, ← flat, hfl]; simp)
    have ht : withB t (es ++ ([] ++ e :: c) :: post) = t := by simp [withB, ← hb]
    rw [ht] at this
    rw [hfl]
    exact this

theorem iterUpdate_eq (t : Table K V) (f : K → Option V → Option V)
    (hc : t.elements = 0 ↔ flat t = []) : iterUpdate t f = .ok (HTmapWithKey t f) := by
  have hu : iterUpdate t f = (forEach t () (updBody f) >>= fun r => .ok r.1) := rfl
  rw [hu]
  rcases iterate_cases t with ⟨h0, hi⟩ | ⟨h0, hpe, w, hi⟩ | ⟨h0, es, e, c, post, hes, hb, hi⟩
  · simp only [forEach, hi, Res.bind_ok, iterLoop]
    have := hc.mp h0
    simp only [HTmapWithKey, map_empties _ (by simpa [flat] using this)]
  · exact absurd (hc.mpr (flatten_empties _ hpe)) h0
  · simp only [forEach, hi, Res.bind_ok]
    have hfl : flat t = e :: c ++ post.flatten := by
      simp only [flat, hb, List.flatten_append, flatten_empties _ hes]; simp
    have := iterLoop_upd t f (c.length + post.flatten.length) es [] e c post (chainTotal t) rfl
      (by rw [chainTotal_eq, ← flat, hfl]; simp)
    have ht : withB t (es ++ ([] ++ e :: c) :: post) = t := by simp [withB, ← hb]
    rw [ht] at this
    simp only [List.length_nil] at this
    rw [this]
    simp only [HTmapWithKey, Res.bind_ok, hb, List.map_append, map_empties _ hes]
    simp

/-- Without the link between counter and chains an updating loop does nothing or hits the assertion. -/
theorem iterUpdate_ok (t t' : Table K V) (f : K → Option V → Option V) (h : iterUpdate t f = .ok t')
    (hc : t.elements = 0 → flat t = []) : t' = HTmapWithKey t f := by
  by_cases hf : flat t = []
  · have hpe : ∀ c ∈ t.buckets, c = [] := by simpa [flat] using hf
    rcases iterate_cases t with ⟨h0, hi⟩ | ⟨h0, hpe, w, hi⟩ | ⟨h0, es, e, c, post, hes, hb, hi⟩
    · rw [iterUpdate_eq t f ⟨hc, fun _ => h0⟩] at h; simpa using h.symm
    · simp [iterUpdate, forEach, hi] at h
    · have := hpe (e :: c) (by simp [hb]); simp at this
  · rw [iterUpdate_eq t f ⟨hc, fun h => absurd h hf⟩] at h
    simpa using h.symm

end Verif.HT
