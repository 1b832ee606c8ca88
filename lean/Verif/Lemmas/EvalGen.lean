import Verif.Spec.EvalGen
import Verif.Lemmas.HashTableSim

/-! # Helper lemmas: evaluation functions and missing children -/

namespace Verif.Spec.EvalGen
open Verif.Str Verif.Ids Verif.HT Verif.EvalGen

/-! ### Loops that write values by position -/

section Remark
variable {K V : Type}

/-- Replace the values of a chain, the first by `g i`. -/
def remark (g : Nat → Option V) : Nat → List (Entry K V) → List (Entry K V)
  | _, [] => []
  | i, e :: es => (e.1, g i) :: remark g (i + 1) es

/-- Replace the values of many chains. -/
def remarkB (g : Nat → Option V) : Nat → List (List (Entry K V)) → List (List (Entry K V))
  | _, [] => []
  | i, c :: cs => remark g i c :: remarkB g (i + c.length) cs

theorem remark_keys (g : Nat → Option V) (c : List (Entry K V)) :
    ∀ i, (remark g i c).map Prod.fst = c.map Prod.fst := by
  induction c with
  | nil => intro i; rfl
  | cons e c ih => intro i; simp [remark, ih]

theorem remark_length (g : Nat → Option V) (c : List (Entry K V)) (i : Nat) : (remark g i c).length = c.length := by
  have := congrArg List.length (remark_keys g c i)
  simpa using this

theorem remark_append (g : Nat → Option V) (c d : List (Entry K V)) :
    ∀ i, remark g i (c ++ d) = remark g i c ++ remark g (i + c.length) d := by
  induction c with
  | nil => intro i; rfl
  | cons e c ih =>
    intro i
    simp only [List.cons_append, remark, ih, List.length_cons]
    congr 3; omega

theorem remarkB_flatten (g : Nat → Option V) (b : List (List (Entry K V))) :
    ∀ i, (remarkB g i b).flatten = remark g i b.flatten := by
  induction b with
  | nil => intro i; rfl
  | cons c b ih => intro i; simp only [remarkB, List.flatten_cons, ih, remark_append]

theorem remarkB_append (g : Nat → Option V) (b d : List (List (Entry K V))) :
    ∀ i, remarkB g i (b ++ d) = remarkB g i b ++ remarkB g (i + b.flatten.length) d := by
  induction b with
  | nil => intro i; rfl
  | cons c b ih =>
    intro i
    simp only [List.cons_append, remarkB, ih, List.flatten_cons, List.length_append]
    congr 3; omega

theorem remarkB_empties (g : Nat → Option V) (b : List (List (Entry K V))) (h : ∀ c ∈ b, c = []) :
    ∀ i, remarkB g i b = b := by
  induction b with
  | nil => intro i; rfl
  | cons c b ih =>
    intro i
    have hc : c = [] := h c (by simp)
    subst hc
    simp only [remarkB, remark]
    rw [ih (fun c hc => h c (by simp [hc]))]

theorem remarkB_keys (g : Nat → Option V) (b : List (List (Entry K V))) :
    ∀ i, (remarkB g i b).map (List.map Prod.fst) = b.map (List.map Prod.fst) := by
  induction b with
  | nil => intro i; rfl
  | cons c b ih => intro i; simp only [remarkB, List.map_cons, remark_keys, ih]

/-- The loop body: write `g i`, count. -/
def markBody (g : Nat → Option V) : Table K V × Nat → Iter → Res (Table K V × Nat) :=
  fun (t, i) it => do
    let t ← HTiterSetValue t it (g i)
    .ok (t, i + 1)

theorem markBody_mid (t : Table K V) (g : Nat → Option V) (i : Nat) (pre) (c1 : List (Entry K V)) (e) (c2) (post) :
    markBody g (withB t (pre ++ (c1 ++ e :: c2) :: post), i) ⟨pre.length, c1.length⟩ =
      .ok (withB t (pre ++ (c1 ++ (e.1, g i) :: c2) :: post), i + 1) := by
  simp only [markBody, set_mid, Res.bind_ok]

theorem iterLoop_mark (t : Table K V) (g : Nat → Option V)
    (n : Nat) : ∀ (pre) (c1 : List (Entry K V)) (e c2 post) (i fuel : Nat),
      c2.length + post.flatten.length = n → n < fuel →
      iterLoop (markBody g) fuel (withB t (pre ++ (c1 ++ e :: c2) :: post), i) (some ⟨pre.length, c1.length⟩) =
        .ok (withB t (pre ++ (c1 ++ remark g i (e :: c2)) :: remarkB g (i + 1 + c2.length) post), i + 1 + n) := by
  induction n with
  | zero =>
    intro pre c1 e c2 post i fuel hn hf
    obtain ⟨fuel, rfl⟩ : ∃ k, fuel = k + 1 := ⟨fuel - 1, by omega⟩
    have hc2 : c2 = [] := List.eq_nil_of_length_eq_zero (by omega)
    have hpo : post.flatten = [] := List.eq_nil_of_length_eq_zero (by omega)
    subst hc2
    have hpe : ∀ c ∈ post, c = [] := by simpa using hpo
    simp only [iterLoop, markBody_mid, Res.bind_ok, next_mid_none, scan_empties _ _ hpe, remarkB_empties _ _ hpe]
    simp [remark]
  | succ n ih =>
    intro pre c1 e c2 post i fuel hn hf
    obtain ⟨fuel, rfl⟩ : ∃ k, fuel = k + 1 := ⟨fuel - 1, by omega⟩
    simp only [iterLoop, markBody_mid, Res.bind_ok]
    cases c2 with
    | cons e' c2 =>
      rw [next_mid_some]
      have hb : pre ++ (c1 ++ (e.1, g i) :: e' :: c2) :: post =
          pre ++ ((c1 ++ [(e.1, g i)]) ++ e' :: c2) :: post := by simp
      simp only [Res.bind_ok]
      rw [hb]
      rw [ih pre (c1 ++ [(e.1, g i)]) e' c2 post (i + 1) fuel (by simp at hn ⊢; omega) (by omega)]
      have h1 : i + 1 + 1 + c2.length = i + 1 + (e' :: c2).length := by simp; omega
      rw [h1]
      simp [remark]; omega
    | nil =>
      rw [next_mid_none]
      rcases split_empties post with hpe | ⟨es, e', c', post', hes, rfl⟩
      · have := flatten_empties _ hpe
        rw [this] at hn
        simp at hn
      · rw [scan_append _ _ hes]
        have hsc : scan (pre.length + 1 + es.length) ((e' :: c') :: post') =
            some ⟨(pre ++ [c1 ++ [(e.1, g i)]] ++ es).length, ([] : List (Entry K V)).length⟩ := by
          simp [scan]; omega
        rw [hsc]
        have hb : pre ++ (c1 ++ [(e.1, g i)]) :: (es ++ (e' :: c') :: post') =
            (pre ++ [c1 ++ [(e.1, g i)]] ++ es) ++ ([] ++ e' :: c') :: post' := by simp
        simp only [Res.bind_ok]
        rw [hb]
        have hfe := flatten_empties _ hes
        rw [ih _ _ e' c' post' (i + 1) fuel (by rw [List.flatten_append, hfe] at hn; simp at hn ⊢; omega) (by omega)]
        rw [remarkB_append, remarkB_empties _ _ hes, hfe]
        have h1 : i + 1 + 1 + c'.length = i + 1 + (e' :: c').length := by simp; omega
        rw [h1]
        simp [remark, remarkB]; omega

theorem forEach_mark (t : Table K V) (g : Nat → Option V) (hc : t.elements = 0 ↔ flat t = []) :
    ∃ m, forEach t 0 (markBody g) = .ok (withB t (remarkB g 0 t.buckets), m) := by
  rcases iterate_cases t with ⟨h0, hi⟩ | ⟨h0, hpe, w, hi⟩ | ⟨h0, es, e, c, post, hes, hb, hi⟩
  · refine ⟨0, ?_⟩
    simp only [forEach, hi, Res.bind_ok, iterLoop]
    have := hc.mp h0
    rw [remarkB_empties _ _ (by simpa [flat] using this)]
  · exact absurd (hc.mpr (flatten_empties _ hpe)) h0
  · simp only [forEach, hi, Res.bind_ok]
    have hfl : flat t = e :: c ++ post.flatten := by
      simp only [flat, hb, List.flatten_append, flatten_empties _ hes]; simp
    have := iterLoop_mark t g (c.length + post.flatten.length) es [] e c post 0 (chainTotal t) rfl
      (by rw [chainTotal_eq, ← flat, hfl]; simp)
    have ht : withB t (es ++ ([] ++ e :: c) :: post) = t := by simp [withB, ← hb]
    rw [ht] at this
    simp only [List.length_nil] at this
    refine ⟨0 + 1 + (c.length + post.flatten.length), this.trans ?_⟩
    rw [hb, remarkB_append, remarkB_empties _ _ hes, flatten_empties _ hes]
    simp only [List.nil_append, remarkB, List.length_nil, Nat.zero_add, List.length_cons, Nat.add_comm]

theorem remark_eq (g : Nat → Option V) [DecidableEq K] (ks : List K) (hn : ks.Nodup) :
    ∀ (c : List (Entry K V)) (i : Nat), c.map Prod.fst = ks →
      remark g i c = ks.map fun k => (k, g (i + ks.idxOf k)) := by
  induction ks with
  | nil => intro c i h; simp at h; subst h; rfl
  | cons k ks ih =>
    intro c i h
    cases c with
    | nil => simp at h
    | cons e c =>
      simp only [List.map_cons, List.cons.injEq] at h
      rw [List.nodup_cons] at hn
      simp only [remark, ih hn.2 c (i + 1) h.2, List.map_cons, List.cons.injEq]
      refine ⟨by rw [h.1]; simp, ?_⟩
      apply List.map_congr_left
      intro k' hk'
      have hne : k ≠ k' := fun h => hn.1 (h ▸ hk')
      rw [List.idxOf_cons]
      have hb : (k == k') = false := by simpa using hne
      rw [hb]
      simp only [cond_false]
      congr 2; omega

end Remark

/-! ### Tables with a mark for every key -/

/-- The table holds exactly the keys `ks` in the order of iteration, marked by `f`. -/
structure Marked (t : Tab) (ks : List UInt64) (f : UInt64 → Mark) : Prop where
  inv : Inv t
  hash_eq : t.hash = PtrHash
  eq_eq : t.eq = PtrEqual
  flat_eq : flat t = ks.map fun k => (k, some (f k))
  nodup : ks.Nodup
  count : t.elements = UInt64.ofNat ks.length
  small : ks.length < 2 ^ 64

theorem ptrKeys : Map.KeyFns PtrHash PtrEqual := by
  refine ⟨?_, ?_, ?_, ?_⟩ <;> simp [PtrEqual]

theorem Marked.keys {t : Tab} {ks f} (h : Marked t ks f) : Map.KeyFns t.hash t.eq := by
  rw [h.hash_eq, h.eq_eq]; exact ptrKeys

theorem Marked.zero {t : Tab} {ks f} (h : Marked t ks f) : t.elements = 0 ↔ flat t = [] := by
  rw [h.count, ofNat_eq_zero _ h.small, h.flat_eq]
  simp

theorem Marked.toNat {t : Tab} {ks f} (h : Marked t ks f) : (HTelementCount t).toNat = ks.length := by
  rw [HTelementCount, h.count, UInt64.toNat_ofNat_of_lt' h.small]

theorem Marked.lookup {t : Tab} {ks f} (h : Marked t ks f) (q : UInt64) :
    HTlookup t q = .ok (if q ∈ ks then some (f q) else none) := by
  rw [lookup_eq h.inv]
  congr 1
  by_cases hq : q ∈ ks
  · rw [if_pos hq]
    have hm : (q, some (f q)) ∈ flat t := by
      rw [h.flat_eq]; exact List.mem_map.2 ⟨q, hq, rfl⟩
    have := h.inv.abs_mem h.keys _ hm
    simp only [Map.get, this]
  · rw [if_neg hq]
    cases ha : HT.abs t q with
    | none => simp [Map.get, ha]
    | some e =>
      obtain ⟨h1, h2⟩ := h.inv.mem_of_abs q e ha
      rw [h.flat_eq] at h1
      obtain ⟨k, hk, rfl⟩ := List.mem_map.1 h1
      rw [h.eq_eq] at h2
      simp [PtrEqual] at h2
      exact absurd (h2 ▸ hk) hq

theorem Marked.setMask {t : Tab} {ks f} (h : Marked t ks f) (onSet onClear : Mark) (b : Nat) :
    ∃ t', EvalGen.setMask onSet onClear b t = .ok t' ∧
      Marked t' ks (fun k => markOf onSet onClear (b.testBit (ks.idxOf k))) := by
  obtain ⟨m, hm⟩ := forEach_mark t (fun i => some (markOf onSet onClear (b.testBit i))) h.zero
  refine ⟨withB t (remarkB (fun i => some (markOf onSet onClear (b.testBit i))) 0 t.buckets), ?_, ?_⟩
  · have hu : EvalGen.setMask onSet onClear b t =
        (forEach t 0 (markBody fun i => some (markOf onSet onClear (b.testBit i))) >>=
          fun r => .ok r.1) := rfl
    rw [hu, hm]; rfl
  · have hk := remarkB_keys (fun i => some (markOf onSet onClear (b.testBit i))) t.buckets 0
    generalize hB : remarkB (fun i => some (markOf onSet onClear (b.testBit i))) 0 t.buckets = B at *
    have hget : ∀ (i : Nat) (c' : List (Entry UInt64 Mark)), B[i]? = some c' → ∃ c : List (Entry UInt64 Mark), t.buckets[i]? = some c ∧ c'.map Prod.fst = c.map Prod.fst := by
      intro i c' hc'
      have h1 := congrArg (fun l : List (List UInt64) => l[i]?) hk
      simp only [List.getElem?_map, hc', Option.map_some] at h1
      cases hc : t.buckets[i]? with
      | none => rw [hc] at h1; simp at h1
      | some c => rw [hc] at h1; exact ⟨c, rfl, by simpa using h1⟩
    refine ⟨⟨h.inv.pos, ?_, ?_, ?_⟩, h.hash_eq, h.eq_eq, ?_, h.nodup, h.count, h.small⟩
    · have := congrArg List.length hk
      simp only [List.length_map] at this
      exact this.trans h.inv.len
    · intro i c' hc' e he
      obtain ⟨c, hc, hkeys⟩ := hget i c' hc'
      have : e.1 ∈ c.map Prod.fst := hkeys ▸ List.mem_map.2 ⟨e, he, rfl⟩
      obtain ⟨e', he', h1⟩ := List.mem_map.1 this
      have := h.inv.place i c hc e' he'
      rw [h1] at this
      exact this
    · intro c' hc'
      obtain ⟨i, hi, hic⟩ := List.getElem_of_mem hc'
      obtain ⟨c, hc, hkeys⟩ := hget i c' (by rw [List.getElem?_eq_getElem hi, hic])
      have h1 := h.inv.nodup c (List.mem_of_getElem? hc)
      have h2 : (c.map Prod.fst).Pairwise (fun a b => t.eq a b = false) := List.pairwise_map.2 h1
      rw [← hkeys] at h2
      exact List.pairwise_map.1 h2
    · show B.flatten = _
      rw [← hB, remarkB_flatten, remark_eq _ ks h.nodup t.buckets.flatten 0 (by
        have := h.flat_eq
        unfold flat at this
        rw [this]
        simp [List.map_map, Function.comp_def])]
      simp

/-! ### Looking for children -/

theorem get_child_eq (name : Id) (cs : List Child) :
    get_child name cs = cs.find? fun c => c.name.lwr == name.lwr := by
  induction cs with
  | nil => rfl
  | cons c cs ih =>
    simp only [get_child, STReq, strcmpEq, List.find?_cons, ih]
    cases c.name.lwr == name.lwr <;> rfl

theorem childOf_some {n : Node} {a : ARef} {c : Child} (h : childOf n a = some c) : c ∈ n.children := by
  simp only [childOf, Option.bind_eq_some_iff] at h
  obtain ⟨i, _, hf⟩ := h
  exact List.mem_of_find?_eq_some hf

/-- With resolved references, either an argument is of the node itself or its child is found. -/
theorem child_cases {n : Node} {e : Equation} (hr : Resolved n e) {a : ARef} (ha : a ∈ e.args) :
    (a.inode = none ∧ childOf n a = none) ∨
      ∃ i c, a.inode = some i ∧ get_child i n.children = some c ∧ childOf n a = some c ∧ c ∈ n.children := by
  cases hi : a.inode with
  | none => exact .inl ⟨rfl, by simp [childOf, hi]⟩
  | some i =>
    right
    obtain ⟨c, hc, hcl⟩ := hr a ha i hi
    cases hf : n.children.find? (fun c => c.name.lwr == i.lwr) with
    | none =>
      rw [List.find?_eq_none] at hf
      exact absurd (by simp [hcl]) (hf c hc)
    | some d =>
      exact ⟨i, d, rfl, by rw [get_child_eq, hf], by simp [childOf, hi, hf], List.mem_of_find?_eq_some hf⟩

theorem addr_inj {n : Node} (hd : Distinct n) {c d : Child} (hc : c ∈ n.children) (hdm : d ∈ n.children)
    (h : c.addr = d.addr) : c = d := by
  unfold Distinct at hd
  generalize n.children = l at *
  induction l with
  | nil => simp at hc
  | cons x l ih =>
    rw [List.pairwise_cons] at hd
    simp only [List.mem_cons] at hc hdm
    rcases hc with rfl | hc <;> rcases hdm with rfl | hdm
    · rfl
    · exact absurd h (hd.1 d hdm)
    · exact absurd h.symm (hd.1 c hc)
    · exact ih hd.2 hc hdm

theorem childAt_eq {n : Node} (hd : Distinct n) {c : Child} (hc : c ∈ n.children) : childAt n c.addr = .ok c := by
  unfold childAt
  cases hf : n.children.find? (fun x => x.addr == c.addr) with
  | none => rw [List.find?_eq_none] at hf; exact absurd (by simp) (hf c hc)
  | some d =>
    have h1 := List.find?_some hf
    simp at h1
    have := addr_inj hd (List.mem_of_find?_eq_some hf) hc h1
    subst this; rfl

/-! ### Collecting the optional children -/

/-- Append what is not there yet. -/
def addNew (l : List Child) (c : Child) : List Child := if c ∈ l then l else l ++ [c]

theorem firsts_mem (xs : List Child) (c : Child) : c ∈ firsts xs ↔ c ∈ xs := by
  induction xs with
  | nil => simp [firsts]
  | cons x xs ih =>
    simp only [firsts, List.mem_cons, List.mem_filter, ih]
    by_cases h : c = x <;> simp [h]

theorem firsts_nodup (xs : List Child) : (firsts xs).Nodup := by
  induction xs with
  | nil => simp [firsts]
  | cons x xs ih =>
    simp only [firsts, List.nodup_cons, List.mem_filter]
    exact ⟨by simp, ih.filter _⟩

theorem foldl_addNew (xs : List Child) : ∀ l : List Child,
    xs.foldl addNew l = l ++ (firsts xs).filter fun c => decide (c ∉ l) := by
  induction xs with
  | nil => intro l; simp [firsts]
  | cons x xs ih =>
    intro l
    simp only [List.foldl_cons, ih, firsts, List.filter_cons, List.filter_filter]
    by_cases hx : x ∈ l
    · have he : addNew l x = l := if_pos hx
      rw [he]
      simp only [hx, not_true, decide_false, Bool.false_eq_true, if_false]
      congr 1
      apply List.filter_congr
      intro c _
      by_cases hc : c ∈ l
      · simp [hc]
      · have : c ≠ x := fun h => hc (h ▸ hx)
        simp [hc, this]
    · have he : addNew l x = l ++ [x] := if_neg hx
      rw [he]
      simp only [hx, not_false_eq_true, decide_true, if_true, List.append_assoc,
        List.cons_append, List.nil_append]
      congr 2
      apply List.filter_congr
      intro c _
      by_cases hc : c = x <;> simp [hc]

theorem foldl_addNew_length (xs : List Child) : ∀ l : List Child, l.length ≤ (xs.foldl addNew l).length := by
  intro l; rw [foldl_addNew]; simp

/-- The state of the collecting loop. -/
structure Coll (n : Node) (t : Tab) (l : List Child) : Prop where
  inv : Inv t
  hash_eq : t.hash = PtrHash
  eq_eq : t.eq = PtrEqual
  abs_eq : HT.abs t = fun q => if q ∈ l.map Child.addr then some (q, some .cfalse) else none
  count : t.elements = UInt64.ofNat l.length
  total : chainTotal t = l.length
  sub : ∀ c ∈ l, c ∈ n.children
  nodup : l.Nodup

theorem coll_new (n : Node) : Coll n (HTnew_Ptr htable_size) [] where
  inv := inv_new htable_size (by decide) _ _
  hash_eq := rfl
  eq_eq := rfl
  abs_eq := by
    rw [HTnew_Ptr, abs_new]
    funext q
    simp [Map.empty]
  count := rfl
  total := by decide
  sub := by simp
  nodup := by simp

theorem collectLoop_ok {n : Node} {e : Equation} (hr : Resolved n e) (hd : Distinct n) (args : List ARef) :
    (∀ a ∈ args, a ∈ e.args) → ∀ (t : Tab) (l : List Child), Coll n t l →
      ∃ t', collectLoop n.children args t l =
        .ok (t', ((args.filterMap (childOf n)).filter fun c => !c.mandatory).foldl addNew l) ∧
        Coll n t' (((args.filterMap (childOf n)).filter fun c => !c.mandatory).foldl addNew l) := by
  induction args with
  | nil => intro _ t l h; exact ⟨t, rfl, h⟩
  | cons a args ih =>
    intro hsub t l h
    have hsub' : ∀ a ∈ args, a ∈ e.args := fun a ha => hsub a (by simp [ha])
    rcases child_cases hr (hsub a (by simp)) with ⟨hi, hc⟩ | ⟨i, c, hi, hg, hc, hcm⟩
    · simp only [collectLoop, hi, List.filterMap_cons, hc]
      exact ih hsub' t l h
    · simp only [collectLoop, hi, hg, List.filterMap_cons, hc, List.filter_cons]
      cases hm : c.mandatory with
      | true =>
        simp only [Bool.not_true, Bool.false_eq_true, if_false]
        exact ih hsub' t l h
      | false =>
        simp only [Bool.not_false, if_true, List.foldl_cons]
        have hlk : HTlookup t c.addr = .ok (if c.addr ∈ l.map Child.addr then some .cfalse else none) := by
          rw [lookup_eq h.inv, h.abs_eq]
          simp only [Map.get]
          split <;> rename_i hh
          · split at hh
            · simp only [Option.some.injEq] at hh; subst hh; simp [*]
            · simp at hh
          · split at hh
            · simp at hh
            · simp [*]
        have hiff : c.addr ∈ l.map Child.addr ↔ c ∈ l := by
          constructor
          · intro hh
            obtain ⟨d, hdl, hda⟩ := List.mem_map.1 hh
            exact addr_inj hd hcm (h.sub d hdl) hda.symm ▸ hdl
          · intro hh; exact List.mem_map.2 ⟨c, hh, rfl⟩
        rw [hlk]
        simp only [Res.bind_ok]
        by_cases hcl : c ∈ l
        · simp only [if_pos (hiff.2 hcl)]
          have : addNew l c = l := by simp [addNew, hcl]
          rw [this]
          exact ih hsub' t l h
        · simp only [if_neg (fun hh => hcl (hiff.1 hh))]
          have H' : Map.KeyFns t.hash t.eq := by rw [h.hash_eq, h.eq_eq]; exact ptrKeys
          obtain ⟨t', h1, hinv, hh, he, hsz, ha, hel, htot⟩ := insert_spec H' h.inv c.addr (some Mark.cfalse)
          have hlive : Map.live (HT.abs t) c.addr = false := by
            rw [h.abs_eq]
            simp only [Map.live, if_neg (fun hh => hcl (hiff.1 hh))]
            rfl
          rw [hlive] at hel htot
          simp only [Bool.false_eq_true, if_false] at hel htot
          rw [h1]
          simp only [Res.bind_ok]
          have : addNew l c = l ++ [c] := by simp [addNew, hcl]
          rw [this]
          refine ih hsub' t' (l ++ [c]) ⟨hinv, hh.trans h.hash_eq, he.trans h.eq_eq, ?_, ?_, ?_, ?_, ?_⟩
          · rw [ha, h.abs_eq, h.eq_eq]
            funext q
            simp only [Map.insert, PtrEqual, if_neg (fun hh => hcl (hiff.1 hh)), Option.map_none,
              Option.getD_none, List.map_append, List.map_cons, List.map_nil, List.mem_append, List.mem_singleton]
            by_cases hq : c.addr = q
            · subst hq; simp
            · have hq' : q ≠ c.addr := fun h => hq h.symm
              simp [hq, hq']
          · rw [hel, h.count, List.length_append, UInt64.ofNat_add]; rfl
          · rw [htot, h.total, List.length_append]; rfl
          · intro d hdm
            simp only [List.mem_append, List.mem_singleton] at hdm
            rcases hdm with hdm | rfl
            · exact h.sub d hdm
            · exact hcm
          · rw [List.nodup_append]
            refine ⟨h.nodup, by simp, ?_⟩
            intro x hx y hy hxy
            simp only [List.mem_singleton] at hy
            exact hcl (hy ▸ hxy ▸ hx)

/-- What collecting yields. -/
theorem collect_ok {n : Node} {e : Equation} (hr : Resolved n e) (hd : Distinct n)
    (hlen : (optionals n e).length < 2 ^ 64) :
    ∃ t ks, collect_children_equation_args (HTnew_Ptr htable_size) n e = .ok (t, optionals n e) ∧
      Marked t ks (fun _ => .cfalse) ∧ (∀ q, q ∈ ks ↔ q ∈ (optionals n e).map Child.addr) ∧
      ks.length = (optionals n e).length := by
  obtain ⟨t, h1, h2⟩ := collectLoop_ok hr hd e.args (fun _ h => h) _ [] (coll_new n)
  have ho : ((e.args.filterMap (childOf n)).filter fun c => !c.mandatory).foldl addNew [] = optionals n e := by
    rw [foldl_addNew]; simp [optionals]
  rw [ho] at h1 h2
  have H' : Map.KeyFns t.hash t.eq := by rw [h2.hash_eq, h2.eq_eq]; exact ptrKeys
  refine ⟨t, (flat t).map Prod.fst, h1, ⟨h2.inv, h2.hash_eq, h2.eq_eq, ?_, ?_, ?_, ?_⟩, ?_, ?_⟩
  · rw [List.map_map]
    conv => lhs; rw [← List.map_id (flat t)]
    apply List.map_congr_left
    intro x hx
    have := h2.inv.abs_mem H' x hx
    rw [h2.abs_eq] at this
    simp only at this
    split at this
    · simp only [Option.some.injEq] at this
      rw [← this]; rfl
    · simp at this
  · have := h2.inv.flat_pairwise H'
    rw [h2.eq_eq] at this
    rw [List.nodup_iff_pairwise_ne, List.pairwise_map]
    refine this.imp ?_
    intro a b hab he
    simp [PtrEqual, he] at hab
  · rw [h2.count, List.length_map, flat_length, h2.total]
  · rw [List.length_map, flat_length, h2.total]; exact hlen
  · intro q
    constructor
    · intro hq
      obtain ⟨x, hx, rfl⟩ := List.mem_map.1 hq
      have := h2.inv.abs_mem H' x hx
      rw [h2.abs_eq] at this
      simp only at this
      split at this
      · assumption
      · simp at this
    · intro hq
      have ha : HT.abs t q = some (q, some .cfalse) := by rw [h2.abs_eq]; simp only [if_pos hq]
      have := (h2.inv.mem_of_abs q _ ha).1
      exact List.mem_map.2 ⟨_, this, rfl⟩
  · rw [List.length_map, flat_length, h2.total]

/-! ### The parts of generated code for one mask -/

/-- The table marks exactly the optional children that `m` calls missing. -/
structure Pat (n : Node) (e : Equation) (t : Tab) (ks : List UInt64) (m : Child → Bool) (f : UInt64 → Mark) : Prop where
  marked : Marked t ks f
  agrees : ∀ c ∈ optionals n e, (f c.addr = .cfalse ↔ m c = true)
  keys : ∀ q, q ∈ ks ↔ q ∈ (optionals n e).map Child.addr

theorem optionals_mem {n : Node} {e : Equation} {c : Child} (h : c ∈ optionals n e) :
    c ∈ n.children ∧ c.mandatory = false := by
  simp only [optionals, firsts_mem, List.mem_filter, List.mem_filterMap] at h
  obtain ⟨⟨a, _, ha⟩, hm⟩ := h
  exact ⟨childOf_some ha, by simpa using hm⟩

theorem mem_optionals {n : Node} {e : Equation} {a : ARef} {c : Child} (ha : a ∈ e.args) (hc : childOf n a = some c)
    (hm : c.mandatory = false) : c ∈ optionals n e := by
  simp only [optionals, firsts_mem, List.mem_filter, List.mem_filterMap]
  exact ⟨⟨a, ha, hc⟩, by simp [hm]⟩

theorem Pat.mem {n e t ks m f} (h : Pat n e t ks m f) {c : Child} (hc : c ∈ optionals n e) : c.addr ∈ ks :=
  (h.keys _).2 (List.mem_map.2 ⟨c, hc, rfl⟩)

theorem Pat.lookup {n e t ks m f} (h : Pat n e t ks m f) {c : Child} (hc : c ∈ optionals n e) :
    HTlookup t c.addr = .ok (some (f c.addr)) := by
  rw [h.marked.lookup, if_pos (h.mem hc)]

theorem Pat.suffix {n e t ks m f} (h : Pat n e t ks m f) (l : List Child) (hl : ∀ c ∈ l, c ∈ optionals n e) :
    nullSuffix t l = .ok ((l.filter m).flatMap fun c => [95] ++ c.name.lwr ++ [95, 78, 85, 76, 76]) := by
  induction l with
  | nil => rfl
  | cons c l ih =>
    have hc := hl c (by simp)
    have ha := h.agrees c hc
    simp only [nullSuffix, h.lookup hc, ih (fun c hc => hl c (by simp [hc])), Res.bind_ok]
    cases hf : f c.addr with
    | cfalse => simp [ha.1 hf]
    | ctrue =>
      have : m c = false := by
        cases hm : m c with
        | false => rfl
        | true => rw [ha.2 hm] at hf; cases hf
      simp [this]

theorem Pat.skipped {n e t ks m f} (h : Pat n e t ks m f) (hr : Resolved n e) (hd : Distinct n) {a : ARef}
    (ha : a ∈ e.args) : EvalGen.skipped n t a = .ok (!passed n m a) := by
  rcases child_cases hr ha with ⟨hi, hc⟩ | ⟨i, c, hi, hg, hc, hcm⟩
  · simp [EvalGen.skipped, hi, passed, hc]
  · simp only [EvalGen.skipped, hi, hg, passed, hc]
    cases hm : c.mandatory with
    | true =>
      have hn : c.addr ∉ ks := by
        intro hk
        obtain ⟨d, hd1, hd2⟩ := List.mem_map.1 ((h.keys _).1 hk)
        have h1 := optionals_mem hd1
        have := addr_inj hd h1.1 hcm hd2
        rw [this] at h1
        rw [hm] at h1
        exact absurd h1.2 (by simp)
      rw [h.marked.lookup, if_neg hn]
      simp
    | false =>
      have hco := mem_optionals ha hc hm
      have hag := h.agrees c hco
      rw [h.lookup hco]
      simp only [Res.bind_ok]
      cases hf : f c.addr with
      | cfalse => simp [hag.1 hf]
      | ctrue =>
        have : m c = false := by
          cases hm : m c with
          | false => rfl
          | true => rw [hag.2 hm] at hf; cases hf
        simp [this]

theorem Pat.callArgs {n e t ks m f} (h : Pat n e t ks m f) (hr : Resolved n e) (hd : Distinct n) (l : List ARef)
    (hl : ∀ a ∈ l, a ∈ e.args) : EvalGen.callArgs n t l = .ok ((l.filter (passed n m)).map (argExpr n)) := by
  induction l with
  | nil => rfl
  | cons a l ih =>
    simp only [EvalGen.callArgs, h.skipped hr hd (hl a (by simp)), ih (fun a ha => hl a (by simp [ha])), Res.bind_ok,
      List.filter_cons]
    have : argText n a = argExpr n a := by unfold argText argExpr; cases a.inode <;> rfl
    cases hp : passed n m a <;> simp [this]

theorem varText_eq (a : ARef) : varText a = owner a ++ [95] ++ a.iattr.lwr := by
  unfold varText get_node_name_this owner
  cases a.inode <;> rfl

theorem evalName_eq (n : Node) (a : ARef) (l : List Child) :
    evalName n a ++ (l.flatMap fun c => [95] ++ c.name.lwr ++ [95, 78, 85, 76, 76]) = fnName n a l := by
  unfold evalName fnName get_node_name_this owner
  cases a.inode <;> rfl

theorem Pat.params {n e t ks m f} (h : Pat n e t ks m f) (hr : Resolved n e) (hd : Distinct n) (l : List ARef)
    (hl : ∀ a ∈ l, a ∈ e.args) : declParams n t l =
      .ok ((l.filter (passed n m)).map fun a => (a.type, owner a ++ [95] ++ a.iattr.lwr)) := by
  induction l with
  | nil => rfl
  | cons a l ih =>
    simp only [declParams, h.skipped hr hd (hl a (by simp)), ih (fun a ha => hl a (by simp [ha])), Res.bind_ok,
      List.filter_cons, varText_eq]
    cases hp : passed n m a <;> simp

/-- One step of the loop that builds a condition. -/
def guardStep (n : Node) (acc : List CStr) (x : Entry UInt64 Mark) : Res (List CStr) :=
  match x.2 with
  | some .cfalse => do
    let c ← childAt n x.1
    .ok (acc ++ [childText n c])
  | _ => .ok acc

/-- The loop body of a condition. -/
theorem guardOf_fold (n : Node) (t : Tab) (hz : t.elements = 0 ↔ flat t = []) :
    guardOf n t = foldRes (guardStep n) [] (flat t) := by
  unfold guardOf
  rw [forEach_read t (guardStep n) _ ?_ hz]
  · cases foldRes (guardStep n) [] (flat t) <;> rfl
  · intro t' s it x hx
    simp only [HTiterKey, HTiterValue, hx, Res.bind_ok, guardStep]
    cases hv : x.2 with
    | none => rfl
    | some v =>
      cases v with
      | cfalse =>
        cases childAt n x.1 <;> rfl
      | ctrue => rfl

theorem guard_fold_ok {n : Node} (hd : Distinct n) (f : UInt64 → Mark) (ks : List UInt64)
    (hk : ∀ q ∈ ks, ∃ c ∈ n.children, c.addr = q) : ∀ acc : List CStr,
    ∃ g, foldRes (guardStep n) acc (ks.map fun k => (k, some (f k))) = .ok (acc ++ g) ∧
      (∀ x, x ∈ g ↔ ∃ c ∈ n.children, c.addr ∈ ks ∧ f c.addr = .cfalse ∧ x = access n c) := by
  induction ks with
  | nil => intro acc; exact ⟨[], by simp [foldRes], by simp⟩
  | cons k ks ih =>
    intro acc
    obtain ⟨c, hc, rfl⟩ := hk k (by simp)
    have ih := ih (fun q hq => hk q (by simp [hq]))
    simp only [List.map_cons, foldRes]
    cases hf : f c.addr with
    | cfalse =>
      have hs : guardStep n acc (c.addr, some Mark.cfalse) = .ok (acc ++ [access n c]) := by
        simp only [guardStep, childAt_eq hd hc, Res.bind_ok]; rfl
      rw [hs]
      simp only [Res.bind_ok]
      obtain ⟨g, hg, hm⟩ := ih (acc ++ [access n c])
      refine ⟨access n c :: g, by rw [hg]; simp, ?_⟩
      intro x
      simp only [List.mem_cons, hm]
      constructor
      · rintro (rfl | ⟨d, h1, h2, h3, h4⟩)
        · exact ⟨c, hc, .inl rfl, hf, rfl⟩
        · exact ⟨d, h1, .inr h2, h3, h4⟩
      · rintro ⟨d, h1, h2 | h2, h3, h4⟩
        · exact .inl (addr_inj hd h1 hc h2 ▸ h4)
        · exact .inr ⟨d, h1, h2, h3, h4⟩
    | ctrue =>
      have hs : guardStep n acc (c.addr, some Mark.ctrue) = .ok acc := rfl
      rw [hs]
      simp only [Res.bind_ok]
      obtain ⟨g, hg, hm⟩ := ih acc
      refine ⟨g, hg, ?_⟩
      intro x
      rw [hm]
      constructor
      · rintro ⟨d, h1, h2, h3, h4⟩
        exact ⟨d, h1, by simp [h2], h3, h4⟩
      · rintro ⟨d, h1, h2, h3, h4⟩
        simp only [List.mem_cons] at h2
        rcases h2 with h2 | h2
        · rw [h2, hf] at h3; cases h3
        · exact ⟨d, h1, h2, h3, h4⟩

theorem Pat.guard {n e t ks m f} (h : Pat n e t ks m f) (hd : Distinct n) :
    ∃ g, guardOf n t = .ok g ∧ ∀ x, x ∈ g ↔ ∃ c ∈ optionals n e, m c = true ∧ x = access n c := by
  have hk : ∀ q ∈ ks, ∃ c ∈ n.children, c.addr = q := by
    intro q hq
    obtain ⟨c, hc, hcq⟩ := List.mem_map.1 ((h.keys q).1 hq)
    exact ⟨c, (optionals_mem hc).1, hcq⟩
  obtain ⟨g, hg, hm⟩ := guard_fold_ok hd f ks hk []
  refine ⟨g, ?_, ?_⟩
  · rw [guardOf_fold n t h.marked.zero, h.marked.flat_eq, hg]; rfl
  · intro x
    rw [hm]
    constructor
    · rintro ⟨c, h1, h2, h3, h4⟩
      obtain ⟨d, hd1, hd2⟩ := List.mem_map.1 ((h.keys _).1 h2)
      have := addr_inj hd (optionals_mem hd1).1 h1 hd2
      subst this
      exact ⟨d, hd1, (h.agrees d hd1).1 h3, h4⟩
    · rintro ⟨c, h1, h2, h3⟩
      exact ⟨c, (optionals_mem h1).1, h.mem h1, (h.agrees c h1).2 h2, h3⟩

/-! ### Masks -/

theorem bits_exist (bs : List Bool) : ∃ P, P < 2 ^ bs.length ∧ ∀ i, P.testBit i = bs.getD i false := by
  induction bs with
  | nil => exact ⟨0, by simp, by simp⟩
  | cons b bs ih =>
    obtain ⟨P, hP, hb⟩ := ih
    refine ⟨2 * P + b.toNat, ?_, ?_⟩
    · rw [List.length_cons, Nat.pow_succ]
      cases b <;> simp <;> omega
    · intro i
      cases i with
      | zero => cases b <;> simp [Nat.testBit_zero] <;> omega
      | succ i =>
        rw [Nat.testBit_succ]
        have : (2 * P + b.toNat) / 2 = P := by cases b <;> simp <;> omega
        rw [this, hb]
        rfl

theorem le_of_bits {P b : Nat} (h : ∀ i, P.testBit i = true → b.testBit i = true) : P ≤ b := by
  have : P &&& b = P := by
    apply Nat.eq_of_testBit_eq
    intro i
    rw [Nat.testBit_and]
    cases hP : P.testBit i with
    | false => rfl
    | true => rw [h i hP]; rfl
  rw [← this]
  exact Nat.and_le_right

/-- A mask that marks the children a pattern calls missing by `bit`. -/
theorem mask_exists {n : Node} {e : Equation} (hd : Distinct n) {ks : List UInt64} (hn : ks.Nodup)
    (hk : ∀ q, q ∈ ks ↔ q ∈ (optionals n e).map Child.addr) (p : Child → Bool) :
    ∃ P, P < 2 ^ ks.length ∧ (∀ c ∈ optionals n e, P.testBit (ks.idxOf c.addr) = p c) ∧
      ∀ i, P.testBit i = true → ∃ c ∈ optionals n e, i = ks.idxOf c.addr ∧ p c = true := by
  let val : UInt64 → Bool := fun q => (((optionals n e).find? fun c => c.addr == q).map p).getD false
  have hval : ∀ c ∈ optionals n e, val c.addr = p c := by
    intro c hc
    simp only [val]
    cases hf : (optionals n e).find? (fun x => x.addr == c.addr) with
    | none => rw [List.find?_eq_none] at hf; exact absurd (by simp) (hf c hc)
    | some d =>
      have h1 := List.find?_some hf
      simp at h1
      have := addr_inj hd (optionals_mem (List.mem_of_find?_eq_some hf)).1 (optionals_mem hc).1 h1
      subst this; rfl
  obtain ⟨P, hP, hb⟩ := bits_exist (ks.map val)
  rw [List.length_map] at hP
  refine ⟨P, hP, ?_, ?_⟩
  · intro c hc
    have hm : c.addr ∈ ks := (hk _).2 (List.mem_map.2 ⟨c, hc, rfl⟩)
    have hlt := List.idxOf_lt_length_of_mem hm
    rw [hb, List.getD_eq_getElem?_getD, List.getElem?_map, List.getElem?_eq_getElem hlt, List.getElem_idxOf hlt]
    exact hval c hc
  · intro i hi
    rw [hb, List.getD_eq_getElem?_getD, List.getElem?_map] at hi
    by_cases hlt : i < ks.length
    · rw [List.getElem?_eq_getElem hlt] at hi
      obtain ⟨c, hc, hcq⟩ := List.mem_map.1 ((hk _).1 (List.getElem_mem hlt))
      refine ⟨c, hc, ?_, ?_⟩
      · rw [hcq]; exact (hn.idxOf_getElem i hlt).symm
      · simp only [Option.map_some, Option.getD_some] at hi
        rw [← hcq, hval c hc] at hi
        exact hi
    · rw [List.getElem?_eq_none (by omega)] at hi
      simp at hi

/-- What a mask of the chain calls missing. -/
def missingAt (ks : List UInt64) (b : Nat) : Child → Bool := fun c => !b.testBit (ks.idxOf c.addr)

/-- What a mask of the declarations calls missing. -/
def missingDecl (ks : List UInt64) (b : Nat) : Child → Bool := fun c => b.testBit (ks.idxOf c.addr)

theorem Marked.pat {n e} {t : Tab} {ks f} (h : Marked t ks f)
    (hk : ∀ q, q ∈ ks ↔ q ∈ (optionals n e).map Child.addr) (b : Nat) :
    ∃ t' f', EvalGen.setMask .ctrue .cfalse b t = .ok t' ∧ Pat n e t' ks (missingAt ks b) f' := by
  obtain ⟨t', h1, h2⟩ := h.setMask .ctrue .cfalse b
  refine ⟨t', _, h1, h2, ?_, hk⟩
  intro c _
  unfold missingAt
  cases b.testBit (ks.idxOf c.addr) <;> simp [markOf]

theorem Marked.patDecl {n e} {t : Tab} {ks f} (h : Marked t ks f)
    (hk : ∀ q, q ∈ ks ↔ q ∈ (optionals n e).map Child.addr) (b : Nat) :
    ∃ t' f', EvalGen.setMask .cfalse .ctrue b t = .ok t' ∧ Pat n e t' ks (missingDecl ks b) f' := by
  obtain ⟨t', h1, h2⟩ := h.setMask .cfalse .ctrue b
  refine ⟨t', _, h1, h2, ?_, hk⟩
  intro c _
  unfold missingDecl
  cases b.testBit (ks.idxOf c.addr) <;> simp [markOf]

/-! ### The chain -/

theorem Pat.branch {n e t ks m f} (h : Pat n e t ks m f) (hr : Resolved n e) (hd : Distinct n) (a : ARef) (last : Bool) :
    ∃ b, branchOf n a e (optionals n e) t last = .ok b ∧ b.call = wantedCall n a e m ∧
      (last = true → b.guard = none) ∧
      (last = false → ∃ g, b.guard = some g ∧ ∀ x, x ∈ g ↔ ∃ c ∈ optionals n e, m c = true ∧ x = access n c) := by
  have hs := h.suffix (optionals n e) (fun _ h => h)
  have ha := h.callArgs hr hd e.args (fun _ h => h)
  obtain ⟨g, hg, hm⟩ := h.guard hd
  cases last with
  | true =>
    refine ⟨⟨none, wantedCall n a e m⟩, ?_, rfl, fun _ => rfl, by simp⟩
    simp only [branchOf, hs, ha, Res.bind_ok, evalName_eq, wantedCall]
  | false =>
    refine ⟨⟨some g, wantedCall n a e m⟩, ?_, rfl, by simp, fun _ => ⟨g, rfl, hm⟩⟩
    simp only [branchOf, hs, ha, hg, Res.bind_ok, evalName_eq, wantedCall]

theorem chosen_skip {isNull : CStr → Bool} {b : Branch} {g : List CStr} (hb : b.guard = some g) {x : CStr} (hx : x ∈ g)
    (hn : isNull x = false) (rest : List Branch) : chosen isNull (b :: rest) = chosen isNull rest := by
  simp only [chosen, hb]
  cases g with
  | nil => simp at hx
  | cons y ys =>
    have : ((y :: ys).all isNull) = false := by
      rw [Bool.eq_false_iff]
      intro h
      rw [List.all_eq_true] at h
      rw [h x hx] at hn
      cases hn
    simp only [this, Bool.false_eq_true, if_false]

theorem chosen_take {isNull : CStr → Bool} {b : Branch} {g : List CStr} (hb : b.guard = some g) (hne : g ≠ [])
    (hn : ∀ x ∈ g, isNull x = true) (rest : List Branch) : chosen isNull (b :: rest) = some b.call := by
  simp only [chosen, hb]
  cases g with
  | nil => simp at hne
  | cons y ys =>
    have : ((y :: ys).all isNull) = true := List.all_eq_true.2 hn
    simp only [this, if_true]

theorem wantedCall_congr {n : Node} {a : ARef} {e : Equation} {m m' : Child → Bool}
    (h : ∀ c ∈ optionals n e, m c = m' c) : wantedCall n a e m = wantedCall n a e m' := by
  have h1 : (optionals n e).filter m = (optionals n e).filter m' := List.filter_congr h
  have h2 : e.args.filter (passed n m) = e.args.filter (passed n m') := by
    apply List.filter_congr
    intro x hx
    unfold passed
    cases hc : childOf n x with
    | none => rfl
    | some c =>
      cases hm : c.mandatory with
      | true => simp [hm]
      | false => simp [hm, h c (mem_optionals hx hc hm)]
  simp only [wantedCall, h1, h2]

theorem wantedParams_congr {n : Node} {e : Equation} {m m' : Child → Bool}
    (h : ∀ c ∈ optionals n e, m c = m' c) : wantedParams n e m = wantedParams n e m' := by
  have h2 : e.args.filter (passed n m) = e.args.filter (passed n m') := by
    apply List.filter_congr
    intro x hx
    unfold passed
    cases hc : childOf n x with
    | none => rfl
    | some c =>
      cases hm : c.mandatory with
      | true => simp [hm]
      | false => simp [hm, h c (mem_optionals hx hc hm)]
  simp only [wantedParams, h2]

/-- From every mask on that is not beyond the pattern of present children, the chain chooses that pattern. -/
theorem chainLoop_ok {n : Node} {e : Equation} (hr : Resolved n e) (hd : Distinct n) (a : ARef) (ks : List UInt64)
    (hn : ks.Nodup) (hk : ∀ q, q ∈ ks ↔ q ∈ (optionals n e).map Child.addr) (todo : Nat) :
    ∀ (t : Tab) (f : UInt64 → Mark), Marked t ks f → todo ≤ 2 ^ ks.length →
      ∃ l, chainLoop n a e (optionals n e) (2 ^ ks.length) todo t = .ok l ∧ l.length = todo ∧
        ∀ isNull : CStr → Bool, ∀ P, P < 2 ^ ks.length → 2 ^ ks.length - todo ≤ P →
          (∀ c ∈ optionals n e, P.testBit (ks.idxOf c.addr) = !isNull (access n c)) →
          (∀ i, P.testBit i = true → ∃ c ∈ optionals n e, i = ks.idxOf c.addr) →
          chosen isNull l = some (wantedCall n a e fun c => isNull (access n c)) := by
  induction todo with
  | zero =>
    intro t f _ _
    refine ⟨[], rfl, rfl, ?_⟩
    intro _ P h1 h2
    omega
  | succ todo ih =>
    intro t f hm hle
    obtain ⟨t', f', hs, hp⟩ := hm.pat hk (2 ^ ks.length - (todo + 1))
    obtain ⟨br, hbr, hcall, hlast, hguard⟩ := hp.branch hr hd a (todo == 0)
    obtain ⟨l, hl, hlen, hch⟩ := ih t' f' hp.marked (by omega)
    refine ⟨br :: l, by simp only [chainLoop, hs, hbr, hl, Res.bind_ok], by simp [hlen], ?_⟩
    intro isNull P hP hge hbits hback
    generalize hb : 2 ^ ks.length - (todo + 1) = b at *
    by_cases hbP : b = P
    · subst hbP
      have hw : br.call = wantedCall n a e fun c => isNull (access n c) := by
        rw [hcall]
        apply wantedCall_congr
        intro c hc
        simp [missingAt, hbits c hc]
      by_cases h0 : todo = 0
      · have := hlast (by simp [h0])
        simp only [chosen, this, hw]
      · obtain ⟨g, hg, hgm⟩ := hguard (by simp [h0])
        rw [chosen_take hg ?_ ?_, hw]
        · intro hge
          have hall : ∀ c ∈ optionals n e, b.testBit (ks.idxOf c.addr) = true := by
            intro c hc
            cases ht : b.testBit (ks.idxOf c.addr) with
            | true => rfl
            | false =>
              have : access n c ∈ g := (hgm _).2 ⟨c, hc, by simp [missingAt, ht], rfl⟩
              rw [hge] at this; simp at this
          have : 2 ^ ks.length - 1 ≤ b := by
            apply le_of_bits
            intro i hi
            rw [Nat.testBit_two_pow_sub_one] at hi
            have hlt : i < ks.length := by simpa using hi
            obtain ⟨c, hc, hcq⟩ := List.mem_map.1 ((hk _).1 (List.getElem_mem hlt))
            have := hall c hc
            rw [hcq, hn.idxOf_getElem i hlt] at this
            exact this
          omega
        · intro x hx
          obtain ⟨c, hc, hmc, rfl⟩ := (hgm x).1 hx
          have := hbits c hc
          simp only [missingAt] at hmc
          rw [this] at hmc
          simpa using hmc
    · have hlt : b < P := by omega
      have h0 : todo ≠ 0 := by omega
      obtain ⟨g, hg, hgm⟩ := hguard (by simp [h0])
      have hex : ∃ i, P.testBit i = true ∧ b.testBit i = false := by
        apply Classical.byContradiction
        intro hno
        have : P ≤ b := le_of_bits (fun i hi => by
          cases hb : b.testBit i with
          | true => rfl
          | false => exact absurd ⟨i, hi, hb⟩ hno)
        omega
      obtain ⟨i, hPi, hbi⟩ := hex
      obtain ⟨c, hc, rfl⟩ := hback i hPi
      have hnn : isNull (access n c) = false := by
        have := hbits c hc
        rw [hPi] at this
        simpa using this.symm
      rw [chosen_skip hg ((hgm _).2 ⟨c, hc, by simp [missingAt, hbi], rfl⟩) hnn]
      exact hch isNull P hP (by omega) hbits hback

/-- The generated chain chooses the call that belongs to the missing children. -/
theorem chainOf_ok {n : Node} {e : Equation} (hr : Resolved n e) (hd : Distinct n) (a : ARef)
    (hlen : (optionals n e).length < 64) :
    ∃ l, chainOf n a e = .ok l ∧ l.length = 2 ^ (optionals n e).length ∧ ∀ isNull : CStr → Bool,
      chosen isNull l = some (wantedCall n a e fun c => isNull (access n c)) := by
  obtain ⟨t, ks, hc, hm, hk, hl⟩ := collect_ok hr hd (by omega)
  have hcount := hm.toNat
  have h64 : combinations t = .ok (2 ^ ks.length) := by
    have h : ks.length < 64 := by omega
    simp only [combinations, hcount, h, decide_true]
  unfold chainOf
  rw [hc]
  simp only [Res.bind_ok]
  by_cases h0 : HTelementCount t = 0
  · have hks : ks = [] := by
      rw [h0] at hcount
      exact List.eq_nil_of_length_eq_zero hcount.symm
    have hop : optionals n e = [] := by
      apply List.eq_nil_of_length_eq_zero
      rw [← hl, hks]; rfl
    have hp : Pat n e t ks (fun _ => true) (fun _ => .cfalse) := ⟨hm, by simp, hk⟩
    refine ⟨_, by
      rw [h0]
      simp only [hp.callArgs hr hd e.args (fun _ h => h), Res.bind_ok]
      rfl, by simp [hop], ?_⟩
    intro isNull
    simp only [chosen]
    have : wantedCall n a e (fun c => isNull (access n c)) = wantedCall n a e (fun _ => true) :=
      wantedCall_congr (by simp [hop])
    rw [this, wantedCall, hop]
    simp only [List.filter_nil, ← evalName_eq, List.flatMap_nil, List.append_nil]
  · have hz : (HTelementCount t == 0) = false := by simpa using h0
    obtain ⟨l, h1, h2, h3⟩ := chainLoop_ok hr hd a ks hm.nodup hk (2 ^ ks.length) t _ hm (Nat.le_refl _)
    refine ⟨l, ?_, by rw [h2, hl], ?_⟩
    · simp only [hz, h64, Res.bind_ok, h1]
    · intro isNull
      obtain ⟨P, hP, hb1, hb2⟩ := mask_exists hd hm.nodup hk (fun c => !isNull (access n c))
      exact h3 isNull P hP (by omega) hb1 (fun i hi => by
        obtain ⟨c, hc, h4, _⟩ := hb2 i hi
        exact ⟨c, hc, h4⟩)

/-! ### Declarations -/

theorem declLoop_ok {n : Node} {e : Equation} (ks : List UInt64)
    (hk : ∀ q, q ∈ ks ↔ q ∈ (optionals n e).map Child.addr) (one : Tab → Res Proto) (want : (Child → Bool) → Proto)
    (hone : ∀ t m f, Pat n e t ks m f → one t = .ok (want m)) (combos todo : Nat) :
    ∀ (t : Tab) (f : UInt64 → Mark), Marked t ks f → todo ≤ combos →
      declLoop one combos todo t = .ok ((List.range' (combos - todo) todo).map fun b => want (missingDecl ks b)) := by
  induction todo with
  | zero => intro t f _ _; rfl
  | succ todo ih =>
    intro t f hm hle
    obtain ⟨t', f', hs, hp⟩ := hm.patDecl hk (combos - (todo + 1))
    simp only [declLoop, hs, hone t' _ f' hp, ih t' f' hp.marked (by omega), Res.bind_ok, List.range'_succ,
      List.map_cons]
    congr 4
    omega

theorem decls_ok {n : Node} {e : Equation} (hr : Resolved n e) (hd : Distinct n)
    (hlen : (optionals n e).length < 64) (one : List Child → Tab → Res Proto) (want : (Child → Bool) → Proto)
    (hone : ∀ t ks m f, Pat n e t ks m f → one (optionals n e) t = .ok (want m))
    (hcongr : ∀ m m', (∀ c ∈ optionals n e, m c = m' c) → want m = want m') :
    ∃ l, (do
        let (t, children) ← collect_children_equation_args (HTnew_Ptr htable_size) n e
        let combos ← combinations t
        declLoop (one children) combos combos t) = Res.ok l ∧
      l.length = 2 ^ (optionals n e).length ∧ (∀ d, d ∈ l ↔ ∃ m, d = want m) := by
  obtain ⟨t, ks, hc, hm, hk, hl⟩ := collect_ok hr hd (by omega)
  have hcount := hm.toNat
  have h64 : combinations t = .ok (2 ^ ks.length) := by
    have h : ks.length < 64 := by omega
    simp only [combinations, hcount, h, decide_true]
  have hd1 := declLoop_ok ks hk (one (optionals n e)) want (fun t m f hp => hone t ks m f hp)
    (2 ^ ks.length) (2 ^ ks.length) t _ hm (Nat.le_refl _)
  refine ⟨_, by
    rw [hc]
    simp only [Res.bind_ok, h64]
    exact hd1, by simp [hl], ?_⟩
  intro d
  simp only [List.mem_map, List.mem_range'_1]
  constructor
  · rintro ⟨b, _, rfl⟩; exact ⟨_, rfl⟩
  · rintro ⟨m, rfl⟩
    obtain ⟨P, hP, hb1, _⟩ := mask_exists hd hm.nodup hk m
    exact ⟨P, by omega, hcongr _ _ (fun c hc => hb1 c hc)⟩

end Verif.Spec.EvalGen
