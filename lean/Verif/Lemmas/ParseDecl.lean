import Verif.Lemmas.Parse

/-!
# The grammar has one reading: declarations
-/

namespace Verif.Parse
open Verif.Str (CStr)

/-! ## Lifetimes -/

/-- What may follow a `lifetime_range`. -/
def RangeEnd (r : List T) : Prop := ∃ r', r = .arrow :: r' ∨ r = .comma :: r' ∨ r = .rbrace :: r'

theorem Closes.rangeEnd {r : List T} (h : Closes r) : RangeEnd r := by
  obtain ⟨r', h⟩ := h
  exact ⟨r', Or.inr h⟩

def lifetimeRangeE : List T → Option (Option Range × List T)
  | .lpar :: ts =>
    match rangeSpecE ts with
    | some (ns, r) => some (some ⟨false, ns⟩, r)
    | none => some (none, ts)
  | .rpar :: ts => some (none, ts)
  | .lbrack :: ts =>
    match rangeSpecE ts with
    | some (ns, r) => some (some ⟨true, ns⟩, r)
    | none => none
  | .id n :: ts =>
    match rangeSpecE (.id n :: ts) with
    | some (ns, .rpar :: r) => some (some ⟨false, ns⟩, r)
    | some (ns, .rbrack :: r) => some (some ⟨true, ns⟩, r)
    | _ => none
  | ts => some (none, ts)

theorem lifetimeRangeE_eq {ts : List T} {g : Option Range} {r : List T} (h : LifetimeRange ts g r) (hr : RangeEnd r) :
    lifetimeRangeE ts = some (g, r) := by
  have hd : NotHead .dot r := by
    obtain ⟨r', rfl | rfl | rfl⟩ := hr <;> exact notHead_cons (fun h => by cases h)
  cases h with
  | empty r => obtain ⟨r', rfl | rfl | rfl⟩ := hr <;> rfl
  | lpar r => obtain ⟨r', rfl | rfl | rfl⟩ := hr <;> rfl
  | rpar r => rfl
  | after ts ns r h => simp only [lifetimeRangeE, rangeSpecE_eq h hd]
  | before ts ns r h =>
    obtain ⟨n, us, rfl⟩ := h.head
    simp only [lifetimeRangeE, rangeSpecE_eq h (notHead_cons (fun h => by cases h))]
  | upTo ts ns r h =>
    obtain ⟨n, us, rfl⟩ := h.head
    simp only [lifetimeRangeE, rangeSpecE_eq h (notHead_cons (fun h => by cases h))]
  | since ts ns r h => simp only [lifetimeRangeE, rangeSpecE_eq h hd]

theorem LifetimeRange.le {ts : List T} {g : Option Range} {r : List T} (h : LifetimeRange ts g r) : r.length ≤ ts.length := by
  cases h with
  | empty r => omega
  | lpar r => simp only [List.length_cons]; omega
  | rpar r => simp only [List.length_cons]; omega
  | after ts ns r h => have := h.lt; simp only [List.length_cons] at *; omega
  | before ts ns r h => have := h.lt; simp only [List.length_cons] at *; omega
  | upTo ts ns r h => have := h.lt; simp only [List.length_cons] at *; omega
  | since ts ns r h => have := h.lt; simp only [List.length_cons] at *; omega

/-- Both sides of a range. -/
def rangeE (ts : List T) : Option (Option Range × Option Range × List T) :=
  match lifetimeRangeE ts with
  | some (b, .arrow :: us) =>
    match lifetimeRangeE us with
    | some (e, r) => some (b, e, r)
    | none => none
  | _ => none

theorem rangeE_eq {ts us : List T} {b e : Option Range} {r : List T} (h1 : LifetimeRange ts b (.arrow :: us))
    (h2 : LifetimeRange us e r) (hr : Closes r) : rangeE ts = some (b, e, r) := by
  simp only [rangeE, lifetimeRangeE_eq h1 ⟨us, Or.inl rfl⟩, lifetimeRangeE_eq h2 hr.rangeEnd]

theorem rangeE_closes {r : List T} (hr : Closes r) : rangeE r = none := by
  obtain ⟨r', rfl | rfl⟩ := hr <;> rfl

def lifetimeE : List T → Option (Lifetime × List T)
  | .disallowed :: ts =>
    match rangeE ts with
    | some (b, e, r) => some (⟨.disallowed, b, e⟩, r)
    | none => some (⟨.disallowed, none, none⟩, ts)
  | .allowed :: ts =>
    match rangeE ts with
    | some (b, e, r) => some (⟨.allowed, b, e⟩, r)
    | none => none
  | .mandatory :: ts =>
    match rangeE ts with
    | some (b, e, r) => some (⟨.mandatory, b, e⟩, r)
    | none => some (⟨.mandatory, none, none⟩, ts)
  | .optional :: ts =>
    match rangeE ts with
    | some (b, e, r) => some (⟨.optional, b, e⟩, r)
    | none => none
  | _ => none

theorem lifetimeE_eq {ts : List T} {l : Lifetime} {r : List T} (h : LifetimeP ts l r) (hr : Closes r) :
    lifetimeE ts = some (l, r) := by
  cases h with
  | disallowed r => simp only [lifetimeE, rangeE_closes hr]
  | disallowedIn ts us b e r h1 h2 => simp only [lifetimeE, rangeE_eq h1 h2 hr]
  | allowedIn ts us b e r h1 h2 => simp only [lifetimeE, rangeE_eq h1 h2 hr]
  | mandatory r => simp only [lifetimeE, rangeE_closes hr]
  | mandatoryIn ts us b e r h1 h2 => simp only [lifetimeE, rangeE_eq h1 h2 hr]
  | optionalIn ts us b e r h1 h2 => simp only [lifetimeE, rangeE_eq h1 h2 hr]

theorem LifetimeP.lt {ts : List T} {l : Lifetime} {r : List T} (h : LifetimeP ts l r) : r.length < ts.length := by
  cases h with
  | disallowed r => simp only [List.length_cons]; omega
  | disallowedIn ts us b e r h1 h2 => have := h1.le; have := h2.le; simp only [List.length_cons] at *; omega
  | allowedIn ts us b e r h1 h2 => have := h1.le; have := h2.le; simp only [List.length_cons] at *; omega
  | mandatory r => simp only [List.length_cons]; omega
  | mandatoryIn ts us b e r h1 h2 => have := h1.le; have := h2.le; simp only [List.length_cons] at *; omega
  | optionalIn ts us b e r h1 h2 => have := h1.le; have := h2.le; simp only [List.length_cons] at *; omega

theorem LifetimeP.head {ts : List T} {l : Lifetime} {r : List T} (h : LifetimeP ts l r) :
    ∃ us, ts = .disallowed :: us ∨ ts = .allowed :: us ∨ ts = .mandatory :: us ∨ ts = .optional :: us := by
  cases h with
  | disallowed r => exact ⟨_, Or.inl rfl⟩
  | disallowedIn ts us b e r _ _ => exact ⟨_, Or.inl rfl⟩
  | allowedIn ts us b e r _ _ => exact ⟨_, Or.inr (Or.inl rfl)⟩
  | mandatory r => exact ⟨_, Or.inr (Or.inr (Or.inl rfl))⟩
  | mandatoryIn ts us b e r _ _ => exact ⟨_, Or.inr (Or.inr (Or.inl rfl))⟩
  | optionalIn ts us b e r _ _ => exact ⟨_, Or.inr (Or.inr (Or.inr rfl))⟩

theorem Lifetimes.sep {ts : List T} {ls : List Lifetime} {r : List T} (h : Lifetimes ts ls r) : Sep LifetimeP ts ls r := by
  induction h with
  | cons ts l us ls r h1 _ ih => exact .cons ts l us ls r h1 ih
  | one ts l r h => exact .one ts l r h

theorem Lifetimes.lt {ts : List T} {ls : List Lifetime} {r : List T} (h : Lifetimes ts ls r) : r.length < ts.length :=
  sep_lt (fun _ _ _ h => h.lt) h.sep

theorem Lifetimes.head {ts : List T} {ls : List Lifetime} {r : List T} (h : Lifetimes ts ls r) :
    ∃ us, ts = .disallowed :: us ∨ ts = .allowed :: us ∨ ts = .mandatory :: us ∨ ts = .optional :: us := by
  cases h with
  | cons ts l us ls r h _ => exact h.head
  | one ts l r h => exact h.head

/-- Items up to the `}`. -/
def blockE {α : Type} (p : List T → Option (α × List T)) (ts : List T) : Option (List α × List T) :=
  match sepE p ts.length ts with
  | some (as, .rbrace :: r) => some (as, r)
  | _ => none

theorem blockE_eq {α : Type} {P : List T → α → List T → Prop} {p : List T → Option (α × List T)}
    (hp : ∀ ts a r, P ts a r → Closes r → p ts = some (a, r)) (hl : ∀ ts a r, P ts a r → r.length < ts.length)
    {ts : List T} {as : List α} {r : List T} (h : Sep P ts as (.rbrace :: r)) : blockE p ts = some (as, r) := by
  simp only [blockE, sepE_eq hp hl h _ (Nat.le_refl _)]

theorem lifetimesE_eq {ts : List T} {ls : List Lifetime} {r : List T} (h : Lifetimes ts ls (.rbrace :: r)) :
    blockE lifetimeE ts = some (ls, r) :=
  blockE_eq (fun _ _ _ h hr => lifetimeE_eq h hr) (fun _ _ _ h => h.lt) h.sep

/-! ## Children -/

def childE : List T → Option (Child × List T)
  | .id ty :: .id n :: .lbrace :: .rbrace :: r => some (⟨n, ty, false, []⟩, r)
  | .id ty :: .id n :: .lbrace :: .constructor :: .rbrace :: r => some (⟨n, ty, true, []⟩, r)
  | .id ty :: .id n :: .lbrace :: .constructor :: .comma :: ts =>
    match blockE lifetimeE ts with
    | some (ls, r) => some (⟨n, ty, true, ls⟩, r)
    | none => none
  | .id ty :: .id n :: .lbrace :: ts =>
    match blockE lifetimeE ts with
    | some (ls, r) => some (⟨n, ty, false, ls⟩, r)
    | none => none
  | .id ty :: .id n :: r => some (⟨n, ty, false, []⟩, r)
  | _ => none

theorem childE_eq {ts : List T} {c : Child} {r : List T} (h : ChildP ts c r) (hr : Closes r) : childE ts = some (c, r) := by
  cases h with
  | plain ty n r => obtain ⟨r', rfl | rfl⟩ := hr <;> rfl
  | braces ty n r => rfl
  | ctor ty n r => rfl
  | life ty n ts ls r h =>
    have e := lifetimesE_eq h
    obtain ⟨us, rfl | rfl | rfl | rfl⟩ := h.head <;> simp only [childE, e]
  | both ty n ts ls r h => simp only [childE, lifetimesE_eq h]

theorem ChildP.lt {ts : List T} {c : Child} {r : List T} (h : ChildP ts c r) : r.length < ts.length := by
  cases h with
  | plain ty n r => simp only [List.length_cons]; omega
  | braces ty n r => simp only [List.length_cons]; omega
  | ctor ty n r => simp only [List.length_cons]; omega
  | life ty n ts ls r h => have := h.lt; simp only [List.length_cons] at *; omega
  | both ty n ts ls r h => have := h.lt; simp only [List.length_cons] at *; omega

theorem Children.sep {ts : List T} {cs : List Child} {r : List T} (h : Children ts cs r) : Sep ChildP ts cs r := by
  induction h with
  | cons ts c us cs r h1 _ ih => exact .cons ts c us cs r h1 ih
  | one ts c r h => exact .one ts c r h

def childrenBodyE : List T → Option (List Child × List T)
  | .children :: .lbrace :: ts => blockE childE ts
  | _ => none

theorem childrenBodyE_eq {ts : List T} {cs : List Child} {r : List T} (h : ChildrenBody ts cs r) :
    childrenBodyE ts = some (cs, r) := by
  cases h with
  | mk ts cs r h => exact blockE_eq (fun _ _ _ h hr => childE_eq h hr) (fun _ _ _ h => h.lt) h.sep

theorem ChildrenBody.lt {ts : List T} {cs : List Child} {r : List T} (h : ChildrenBody ts cs r) : r.length < ts.length := by
  cases h with
  | mk ts cs r h =>
    have := sep_lt (fun _ _ _ h => h.lt) h.sep
    simp only [List.length_cons] at *; omega

theorem ChildrenBody.head {ts : List T} {cs : List Child} {r : List T} (h : ChildrenBody ts cs r) : ∃ us, ts = .children :: us := by
  cases h; exact ⟨_, rfl⟩

/-! ## Attributes -/

def primE : T → Option AT
  | .bool => some .bool
  | .string => some .string
  | .int => some .int
  | .float => some .float
  | .double => some .double
  | .uint8 => some .uint8
  | .uint16 => some .uint16
  | .uint32 => some .uint32
  | .uint64 => some .uint64
  | .int8 => some .int8
  | .int16 => some .int16
  | .int32 => some .int32
  | .int64 => some .int64
  | _ => none

theorem primE_eq {t : T} {ty : AT} (h : Primitive t ty) : primE t = some ty := by cases h <;> rfl

def keywordE : List T → Option (Opt × List T)
  | .constructor :: r => some (.constructor, r)
  | .inherited :: r => some (.inherited, r)
  | .synthesized :: r => some (.synthesized, r)
  | ts =>
    match lifetimeE ts with
    | some (l, r) => some (.lifetime l, r)
    | none => none

theorem keywordE_eq {ts : List T} {o : Opt} {r : List T} (h : Keyword ts o r) (hr : Closes r) : keywordE ts = some (o, r) := by
  cases h with
  | constructor r => rfl
  | inherited r => rfl
  | synthesized r => rfl
  | lifetime ts l r h =>
    have e := lifetimeE_eq h hr
    obtain ⟨us, rfl | rfl | rfl | rfl⟩ := h.head <;> simp only [keywordE, e]

theorem Keyword.lt {ts : List T} {o : Opt} {r : List T} (h : Keyword ts o r) : r.length < ts.length := by
  cases h with
  | constructor r => simp only [List.length_cons]; omega
  | inherited r => simp only [List.length_cons]; omega
  | synthesized r => simp only [List.length_cons]; omega
  | lifetime ts l r h => exact h.lt

def keywordsE : Nat → List T → Option (List Opt × List T)
  | 0, _ => none
  | n + 1, ts =>
    match keywordE ts with
    | none => some ([], ts)
    | some (o, .comma :: us) =>
      match keywordsE n us with
      | some (os, r) => some (o :: os, r)
      | none => none
    | some (o, r) => some ([o], r)

theorem keywordsE_eq {ts : List T} {os : List Opt} {r : List T} (h : Keywords ts os (.rbrace :: r)) :
    ∀ n, ts.length < n → keywordsE n ts = some (os, .rbrace :: r) := by
  generalize e : T.rbrace :: r = r' at h
  induction h with
  | empty r1 =>
    intro n hn
    subst e
    match n with
    | 0 => omega
    | n + 1 => rfl
  | one ts o r1 h =>
    intro n hn
    subst e
    match n with
    | 0 => omega
    | n + 1 => simp only [keywordsE, keywordE_eq h ⟨r, Or.inr rfl⟩]
  | cons ts o us os r1 h _ ih =>
    intro n hn
    have := h.lt
    simp only [List.length_cons] at this
    match n with
    | 0 => omega
    | n + 1 => simp only [keywordsE, keywordE_eq h ⟨us, Or.inl rfl⟩, ih e n (by omega)]

theorem Keywords.le {ts : List T} {os : List Opt} {r : List T} (h : Keywords ts os r) : r.length ≤ ts.length := by
  induction h with
  | empty r => omega
  | one ts o r h => have := h.lt; omega
  | cons ts o us os r h _ ih => have := h.lt; simp only [List.length_cons] at *; omega

def optionsE (n : Name) (ty : AT) (ref : Option Name) : List T → Option (Attr × List T)
  | .lbrace :: ts =>
    match keywordsE (ts.length + 1) ts with
    | some (os, .rbrace :: r) => some (mkAttr n ty ref (parse_attribute_options os), r)
    | _ => none
  | r => some (⟨n, ty, ref, false, false, false, []⟩, r)

theorem optionsE_eq (n : Name) (ty : AT) (ref : Option Name) {ts : List T} {os : List Opt} {r : List T}
    (h : Keywords ts os (.rbrace :: r)) :
    optionsE n ty ref (.lbrace :: ts) = some (mkAttr n ty ref (parse_attribute_options os), r) := by
  simp only [optionsE, keywordsE_eq h _ (Nat.lt_succ_self _)]

theorem optionsE_closes (n : Name) (ty : AT) (ref : Option Name) {r : List T} (h : Closes r) :
    optionsE n ty ref r = some (⟨n, ty, ref, false, false, false, []⟩, r) := by
  obtain ⟨r', rfl | rfl⟩ := h <;> rfl

def attrE : List T → Option (Attr × List T)
  | .user :: .id ty :: .id n :: r => optionsE n .user (some ty) r
  | .id ty :: .id n :: r => optionsE n .link_or_enum (some ty) r
  | t :: .id n :: r =>
    match primE t with
    | some ty => optionsE n ty none r
    | none => none
  | _ => none

theorem attrE_prim {t : T} {ty : AT} (h : Primitive t ty) (n : Name) (r : List T) :
    attrE (t :: .id n :: r) = optionsE n ty none r := by
  cases h <;> rfl

theorem attrE_eq {ts : List T} {a : Attr} {r : List T} (h : AttrP ts a r) (hr : Closes r) : attrE ts = some (a, r) := by
  cases h with
  | primOpts t ty n ts os r hp h => rw [attrE_prim hp, optionsE_eq n ty none h]
  | prim t ty n r hp => rw [attrE_prim hp, optionsE_closes n ty none hr]
  | linkOpts ty n ts os r h => simp only [attrE, optionsE_eq n .link_or_enum (some ty) h]
  | link ty n r => simp only [attrE, optionsE_closes n .link_or_enum (some ty) hr]
  | userOpts ty n ts os r h => simp only [attrE, optionsE_eq n .user (some ty) h]
  | user ty n r => simp only [attrE, optionsE_closes n .user (some ty) hr]

theorem AttrP.lt {ts : List T} {a : Attr} {r : List T} (h : AttrP ts a r) : r.length < ts.length := by
  cases h with
  | primOpts t ty n ts os r hp h => have := h.le; simp only [List.length_cons] at *; omega
  | prim t ty n r hp => simp only [List.length_cons]; omega
  | linkOpts ty n ts os r h => have := h.le; simp only [List.length_cons] at *; omega
  | link ty n r => simp only [List.length_cons]; omega
  | userOpts ty n ts os r h => have := h.le; simp only [List.length_cons] at *; omega
  | user ty n r => simp only [List.length_cons]; omega

theorem Attributes.sep {ts : List T} {as : List Attr} {r : List T} (h : Attributes ts as r) : Sep AttrP ts as r := by
  induction h with
  | cons ts a us as r h1 _ ih => exact .cons ts a us as r h1 ih
  | one ts a r h => exact .one ts a r h

def attributeBodyE : List T → Option (List Attr × List T)
  | .attributes :: .lbrace :: ts => blockE attrE ts
  | _ => none

theorem attributeBodyE_eq {ts : List T} {as : List Attr} {r : List T} (h : AttributeBody ts as r) :
    attributeBodyE ts = some (as, r) := by
  cases h with
  | mk ts as r h => exact blockE_eq (fun _ _ _ h hr => attrE_eq h hr) (fun _ _ _ h => h.lt) h.sep

theorem AttributeBody.lt {ts : List T} {as : List Attr} {r : List T} (h : AttributeBody ts as r) : r.length < ts.length := by
  cases h with
  | mk ts as r h =>
    have := sep_lt (fun _ _ _ h => h.lt) h.sep
    simp only [List.length_cons] at *; omega

theorem AttributeBody.head {ts : List T} {as : List Attr} {r : List T} (h : AttributeBody ts as r) :
    ∃ us, ts = .attributes :: us := by
  cases h; exact ⟨_, rfl⟩

/-! ## Equations -/

def refE : List T → Option (Ref × List T)
  | .id n :: .dot :: .id a :: r => some (⟨some n, a⟩, r)
  | .this :: .dot :: .id a :: r => some (⟨none, a⟩, r)
  | _ => none

theorem refE_eq {ts : List T} {a : Ref} {r : List T} (h : RefP ts a r) : refE ts = some (a, r) := by cases h <;> rfl

theorem RefP.lt {ts : List T} {a : Ref} {r : List T} (h : RefP ts a r) : r.length < ts.length := by
  cases h <;> simp only [List.length_cons] <;> omega

theorem RefP.head {ts : List T} {a : Ref} {r : List T} (h : RefP ts a r) : ∃ t us, ts = t :: us ∧ t ≠ .rbrace := by
  cases h <;> exact ⟨_, _, rfl, (fun h => by cases h)⟩

theorem Dependencies.sep {ts : List T} {ds : List Ref} {r : List T} (h : Dependencies ts ds r) : Sep RefP ts ds r := by
  induction h with
  | cons ts d us ds r h1 _ ih => exact .cons ts d us ds r h1 ih
  | one ts d r h => exact .one ts d r h

theorem Dependencies.head {ts : List T} {ds : List Ref} {r : List T} (h : Dependencies ts ds r) :
    ∃ t us, ts = t :: us ∧ t ≠ .rbrace := by
  cases h with
  | cons ts d us ds r h _ => exact h.head
  | one ts d r h => exact h.head

def prodBlockE : List T → Option (List Ref × List T)
  | .lbrace :: .rbrace :: r => some ([], r)
  | .lbrace :: .args :: .eq :: .lbrace :: .rbrace :: .rbrace :: r => some ([], r)
  | .lbrace :: .args :: .eq :: .lbrace :: ts =>
    match blockE refE ts with
    | some (ds, .rbrace :: r) => some (ds, r)
    | _ => none
  | _ => none

theorem prodBlockE_eq {ts : List T} {ds : List Ref} {r : List T} (h : ProdBlock ts ds r) : prodBlockE ts = some (ds, r) := by
  cases h with
  | empty r => rfl
  | mk ts ds r h =>
    cases h with
    | empty r => rfl
    | mk ts ds r h =>
      have e := blockE_eq (fun _ _ _ h _ => refE_eq h) (fun _ _ _ h => h.lt) h.sep
      obtain ⟨t, us, rfl, ht⟩ := h.head
      unfold prodBlockE
      split
      · rename_i h'; cases h'
      · rename_i h'; cases h'; exact absurd rfl ht
      · rename_i h'; cases h'; simp only [e]
      · rename_i h'; exact absurd rfl (h' _)

theorem ProdBlock.lt {ts : List T} {ds : List Ref} {r : List T} (h : ProdBlock ts ds r) : r.length < ts.length := by
  cases h with
  | empty r => simp only [List.length_cons]; omega
  | mk ts ds r h =>
    cases h with
    | empty r => simp only [List.length_cons]; omega
    | mk ts ds r h =>
      have := sep_lt (fun _ _ _ h => h.lt) h.sep
      simp only [List.length_cons] at *; omega

def equationE (ts : List T) : Option (Equation × List T) :=
  match refE ts with
  | some (a, .eq :: us) =>
    match prodBlockE us with
    | some (ds, r) => some (⟨a, ds⟩, r)
    | none => none
  | _ => none

theorem equationE_eq {ts : List T} {e : Equation} {r : List T} (h : EquationP ts e r) : equationE ts = some (e, r) := by
  cases h with
  | mk a us ds _ h1 h2 => simp only [equationE, refE_eq h1, prodBlockE_eq h2]

theorem EquationP.lt {ts : List T} {e : Equation} {r : List T} (h : EquationP ts e r) : r.length < ts.length := by
  cases h with
  | mk a us ds _ h1 h2 => have := h1.lt; have := h2.lt; simp only [List.length_cons] at *; omega

theorem Equations.sep {ts : List T} {es : List Equation} {r : List T} (h : Equations ts es r) : Sep EquationP ts es r := by
  induction h with
  | cons ts d us ds r h1 _ ih => exact .cons ts d us ds r h1 ih
  | one ts d r h => exact .one ts d r h

def equationBodyE : List T → Option (List Equation × List T)
  | .equations :: .lbrace :: ts => blockE equationE ts
  | _ => none

theorem equationBodyE_eq {ts : List T} {es : List Equation} {r : List T} (h : EquationBody ts es r) :
    equationBodyE ts = some (es, r) := by
  cases h with
  | mk ts es r h => exact blockE_eq (fun _ _ _ h _ => equationE_eq h) (fun _ _ _ h => h.lt) h.sep

theorem EquationBody.lt {ts : List T} {es : List Equation} {r : List T} (h : EquationBody ts es r) : r.length < ts.length := by
  cases h with
  | mk ts es r h =>
    have := sep_lt (fun _ _ _ h => h.lt) h.sep
    simp only [List.length_cons] at *; omega

theorem EquationBody.head {ts : List T} {es : List Equation} {r : List T} (h : EquationBody ts es r) :
    ∃ us, ts = .equations :: us := by
  cases h; exact ⟨_, rfl⟩

/-! ## Nodes -/

def nodeHeadE : List T → Option (Bool × Name × List T)
  | .root :: .node :: .id n :: .lbrace :: r => some (true, n, r)
  | .node :: .id n :: .lbrace :: r => some (false, n, r)
  | _ => none

theorem nodeHeadE_eq {ts : List T} {b : Bool} {n : Name} {r : List T} (h : NodeHead ts b n r) :
    nodeHeadE ts = some (b, n, r) := by
  cases h with
  | mk h => cases h <;> rfl

theorem NodeHead.lt {ts : List T} {b : Bool} {n : Name} {r : List T} (h : NodeHead ts b n r) : r.length < ts.length := by
  cases h with
  | mk h => cases h <;> simp only [List.length_cons] <;> omega

theorem NodeHead.head {ts : List T} {b : Bool} {n : Name} {r : List T} (h : NodeHead ts b n r) :
    ∃ us, ts = .root :: us ∨ ts = .node :: us := by
  cases h with
  | mk h => cases h <;> first | exact ⟨_, Or.inl rfl⟩ | exact ⟨_, Or.inr rfl⟩

/-- The lifetimes and the `}` behind them. -/
def nodeLifetimesE : List T → Option (List Lifetime × List T)
  | .lifetime :: .lbrace :: ts =>
    match blockE lifetimeE ts with
    | some (ls, .rbrace :: r) => some (ls, r)
    | _ => none
  | .rbrace :: r => some ([], r)
  | _ => none

theorem nodeLifetimesE_eq {ts : List T} {ls : List Lifetime} {r : List T} (h : NodeLifetimes ts ls (.rbrace :: r)) :
    nodeLifetimesE ts = some (ls, r) := by
  cases h with
  | empty r => rfl
  | mk ts ls r h => simp only [nodeLifetimesE, lifetimesE_eq h]

theorem NodeLifetimes.le {ts : List T} {ls : List Lifetime} {r : List T} (h : NodeLifetimes ts ls r) : r.length ≤ ts.length := by
  cases h with
  | empty r => omega
  | mk ts ls r h => have := h.lt; simp only [List.length_cons] at *; omega

theorem NodeLifetimes.head {ts : List T} {ls : List Lifetime} {r : List T} (h : NodeLifetimes ts ls (.rbrace :: r)) :
    ∃ us, ts = .lifetime :: us ∨ ts = .rbrace :: us := by
  cases h <;> first | exact ⟨_, Or.inl rfl⟩ | exact ⟨_, Or.inr rfl⟩

/-- What follows the equations. -/
def afterEquationsE : List T → Option (List Lifetime × List T)
  | .rbrace :: r => some ([], r)
  | .comma :: ts => nodeLifetimesE ts
  | _ => none

/-- Equations and what follows them, or lifetimes. -/
def equationsOnE : List T → Option (List Equation × List Lifetime × List T)
  | .equations :: ts =>
    match equationBodyE (.equations :: ts) with
    | some (es, us) =>
      match afterEquationsE us with
      | some (ls, r) => some (es, ls, r)
      | none => none
    | none => none
  | ts =>
    match nodeLifetimesE ts with
    | some (ls, r) => some ([], ls, r)
    | none => none

/-- What follows the attributes. -/
def afterAttributesE : List T → Option (List Equation × List Lifetime × List T)
  | .rbrace :: r => some ([], [], r)
  | .comma :: ts => equationsOnE ts
  | _ => none

/-- Attributes and what follows them, or what may follow them. -/
def attributesOnE : List T → Option (List Attr × List Equation × List Lifetime × List T)
  | .attributes :: ts =>
    match attributeBodyE (.attributes :: ts) with
    | some (as, us) =>
      match afterAttributesE us with
      | some (es, ls, r) => some (as, es, ls, r)
      | none => none
    | none => none
  | ts =>
    match equationsOnE ts with
    | some (es, ls, r) => some ([], es, ls, r)
    | none => none

/-- The inside of a node up to the `}`. -/
def nodeBodyE : List T → Option (List Child × List Attr × List Equation × List Lifetime × List T)
  | .rbrace :: r => some ([], [], [], [], r)
  | .children :: ts =>
    match childrenBodyE (.children :: ts) with
    | some (cs, .rbrace :: r) => some (cs, [], [], [], r)
    | some (cs, .comma :: us) =>
      match attributesOnE us with
      | some (as, es, ls, r) => some (cs, as, es, ls, r)
      | none => none
    | _ => none
  | .attributes :: ts =>
    match attributesOnE (.attributes :: ts) with
    | some (as, es, ls, r) => some ([], as, es, ls, r)
    | none => none
  | .equations :: ts =>
    match equationBodyE (.equations :: ts) with
    | some (es, .rbrace :: r) => some ([], [], es, [], r)
    | _ => none
  | _ => none

def nodeE (ts : List T) : Option (Node × List T) :=
  match nodeHeadE ts with
  | some (b, n, us) =>
    match nodeBodyE us with
    | some (cs, as, es, ls, r) => some (⟨n, b, cs, as, es, ls, 0⟩, r)
    | none => none
  | none => none

theorem equationsOnE_e {ts us : List T} {es : List Equation} {ls : List Lifetime} {r : List T} (h : EquationBody ts es us)
    (h2 : afterEquationsE us = some (ls, r)) : equationsOnE ts = some (es, ls, r) := by
  have e := equationBodyE_eq h
  obtain ⟨vs, rfl⟩ := h.head
  simp only [equationsOnE, e, h2]

theorem equationsOnE_l {ts : List T} {ls : List Lifetime} {r : List T} (h : NodeLifetimes ts ls (.rbrace :: r)) :
    equationsOnE ts = some ([], ls, r) := by
  have e := nodeLifetimesE_eq h
  obtain ⟨vs, rfl | rfl⟩ := h.head <;> simp only [equationsOnE, e]

theorem afterEquationsE_l {ts : List T} {ls : List Lifetime} {r : List T} (h : NodeLifetimes ts ls (.rbrace :: r)) :
    afterEquationsE (.comma :: ts) = some (ls, r) := by
  simp only [afterEquationsE, nodeLifetimesE_eq h]

theorem attributesOnE_a {ts us : List T} {as : List Attr} {es : List Equation} {ls : List Lifetime} {r : List T}
    (h : AttributeBody ts as us) (h2 : afterAttributesE us = some (es, ls, r)) : attributesOnE ts = some (as, es, ls, r) := by
  have e := attributeBodyE_eq h
  obtain ⟨vs, rfl⟩ := h.head
  simp only [attributesOnE, e, h2]

theorem attributesOnE_e {ts us : List T} {es : List Equation} {ls : List Lifetime} {r : List T} (h : EquationBody ts es us)
    (h2 : afterEquationsE us = some (ls, r)) : attributesOnE ts = some ([], es, ls, r) := by
  have e := equationsOnE_e h h2
  obtain ⟨vs, rfl⟩ := h.head
  simp only [attributesOnE, e]

theorem attributesOnE_l {ts : List T} {ls : List Lifetime} {r : List T} (h : NodeLifetimes ts ls (.rbrace :: r)) :
    attributesOnE ts = some ([], [], ls, r) := by
  have e := equationsOnE_l h
  obtain ⟨vs, rfl | rfl⟩ := h.head <;> simp only [attributesOnE, e]

theorem nodeBodyE_c {ts us : List T} {cs : List Child} {as : List Attr} {es : List Equation} {ls : List Lifetime} {r : List T}
    (h : ChildrenBody ts cs (.comma :: us)) (h2 : attributesOnE us = some (as, es, ls, r)) :
    nodeBodyE ts = some (cs, as, es, ls, r) := by
  have e := childrenBodyE_eq h
  obtain ⟨vs, rfl⟩ := h.head
  simp only [nodeBodyE, e, h2]

theorem nodeBodyE_a {ts us : List T} {as : List Attr} {es : List Equation} {ls : List Lifetime} {r : List T}
    (h : AttributeBody ts as us) (h2 : afterAttributesE us = some (es, ls, r)) :
    nodeBodyE ts = some ([], as, es, ls, r) := by
  have e := attributesOnE_a h h2
  obtain ⟨vs, rfl⟩ := h.head
  simp only [nodeBodyE, e]

theorem nodeE_of {ts us : List T} {b : Bool} {n : Name} {cs : List Child} {as : List Attr} {es : List Equation}
    {ls : List Lifetime} {r : List T} (h : NodeHead ts b n us) (h2 : nodeBodyE us = some (cs, as, es, ls, r)) :
    nodeE ts = some (⟨n, b, cs, as, es, ls, 0⟩, r) := by
  simp only [nodeE, nodeHeadE_eq h, h2]

theorem nodeE_eq {ts : List T} {n : Node} {r : List T} (h : NodeP ts n r) : nodeE ts = some (n, r) := by
  cases h with
  | cael _ _ _ _ _ _ _ _ _ _ _ h0 h1 h2 h3 h4 =>
    exact nodeE_of h0 (nodeBodyE_c h1 (attributesOnE_a h2 (equationsOnE_e h3 (afterEquationsE_l h4))))
  | cal _ _ _ _ _ _ _ _ _ h0 h1 h2 h4 => exact nodeE_of h0 (nodeBodyE_c h1 (attributesOnE_a h2 (equationsOnE_l h4)))
  | ael _ _ _ _ _ _ _ _ _ h0 h2 h3 h4 => exact nodeE_of h0 (nodeBodyE_a h2 (equationsOnE_e h3 (afterEquationsE_l h4)))
  | al _ _ _ _ _ _ _ h0 h2 h4 => exact nodeE_of h0 (nodeBodyE_a h2 (equationsOnE_l h4))
  | cel _ _ _ _ _ _ _ _ _ h0 h1 h3 h4 => exact nodeE_of h0 (nodeBodyE_c h1 (attributesOnE_e h3 (afterEquationsE_l h4)))
  | cl _ _ _ _ _ _ _ h0 h1 h4 => exact nodeE_of h0 (nodeBodyE_c h1 (attributesOnE_l h4))
  | ae _ _ _ _ _ _ _ h0 h2 h3 => exact nodeE_of h0 (nodeBodyE_a h2 (equationsOnE_e h3 rfl))
  | a _ _ _ _ _ h0 h2 => exact nodeE_of h0 (nodeBodyE_a h2 rfl)
  | ce _ _ _ _ _ _ _ h0 h1 h3 => exact nodeE_of h0 (nodeBodyE_c h1 (attributesOnE_e h3 rfl))
  | c _ _ _ _ _ h0 h1 =>
    refine nodeE_of h0 ?_
    have e := childrenBodyE_eq h1
    obtain ⟨vs, rfl⟩ := h1.head
    simp only [nodeBodyE, e]
  | cae _ _ _ _ _ _ _ _ _ h0 h1 h2 h3 => exact nodeE_of h0 (nodeBodyE_c h1 (attributesOnE_a h2 (equationsOnE_e h3 rfl)))
  | ca _ _ _ _ _ _ _ h0 h1 h2 => exact nodeE_of h0 (nodeBodyE_c h1 (attributesOnE_a h2 rfl))
  | e _ _ _ _ _ h0 h3 =>
    refine nodeE_of h0 ?_
    have e := equationBodyE_eq h3
    obtain ⟨vs, rfl⟩ := h3.head
    simp only [nodeBodyE, e]
  | none _ _ _ h0 => exact nodeE_of h0 rfl

theorem NodeP.head {ts : List T} {n : Node} {r : List T} (h : NodeP ts n r) : ∃ us, ts = .root :: us ∨ ts = .node :: us := by
  have key : ∃ b m us, NodeHead ts b m us := by
    cases h <;> exact ⟨_, _, _, by assumption⟩
  obtain ⟨b, m, us, h⟩ := key
  exact h.head

theorem NodeP.lt {ts : List T} {n : Node} {r : List T} (h : NodeP ts n r) : r.length < ts.length := by
  cases h with
  | cael _ _ _ _ _ _ _ _ _ _ _ h0 h1 h2 h3 h4 =>
    have := h0.lt; have := h1.lt; have := h2.lt; have := h3.lt; have := h4.le; simp only [List.length_cons] at *; omega
  | cal _ _ _ _ _ _ _ _ _ h0 h1 h2 h4 =>
    have := h0.lt; have := h1.lt; have := h2.lt; have := h4.le; simp only [List.length_cons] at *; omega
  | ael _ _ _ _ _ _ _ _ _ h0 h2 h3 h4 =>
    have := h0.lt; have := h3.lt; have := h2.lt; have := h4.le; simp only [List.length_cons] at *; omega
  | al _ _ _ _ _ _ _ h0 h2 h4 => have := h0.lt; have := h2.lt; have := h4.le; simp only [List.length_cons] at *; omega
  | cel _ _ _ _ _ _ _ _ _ h0 h1 h3 h4 =>
    have := h0.lt; have := h1.lt; have := h3.lt; have := h4.le; simp only [List.length_cons] at *; omega
  | cl _ _ _ _ _ _ _ h0 h1 h4 => have := h0.lt; have := h1.lt; have := h4.le; simp only [List.length_cons] at *; omega
  | ae _ _ _ _ _ _ _ h0 h2 h3 => have := h0.lt; have := h2.lt; have := h3.lt; simp only [List.length_cons] at *; omega
  | a _ _ _ _ _ h0 h2 => have := h0.lt; have := h2.lt; simp only [List.length_cons] at *; omega
  | ce _ _ _ _ _ _ _ h0 h1 h3 => have := h0.lt; have := h1.lt; have := h3.lt; simp only [List.length_cons] at *; omega
  | c _ _ _ _ _ h0 h1 => have := h0.lt; have := h1.lt; simp only [List.length_cons] at *; omega
  | cae _ _ _ _ _ _ _ _ _ h0 h1 h2 h3 =>
    have := h0.lt; have := h1.lt; have := h2.lt; have := h3.lt; simp only [List.length_cons] at *; omega
  | ca _ _ _ _ _ _ _ h0 h1 h2 => have := h0.lt; have := h1.lt; have := h2.lt; simp only [List.length_cons] at *; omega
  | e _ _ _ _ _ h0 h3 => have := h0.lt; have := h3.lt; simp only [List.length_cons] at *; omega
  | none _ _ _ h0 => have := h0.lt; simp only [List.length_cons] at *; omega

/-! ## Nodesets and enumerations -/

/-- An `info` with its comma, if there is one. -/
def infoCommaE : List T → Option (Option CStr × List T)
  | .info :: .eq :: .str i :: .comma :: r => some (some i, r)
  | .info :: _ => none
  | ts => some (none, ts)

/-- The inside of a nodeset behind the `=`. -/
def nodesetBodyE (n : Name) (i : Option CStr) (ts : List T) : Option (NodeSet × List T) :=
  match setExprE ts with
  | some (e, .rbrace :: r) => some (⟨n, e, i, []⟩, r)
  | some (e, .comma :: us) =>
    match attributeBodyE us with
    | some (as, .rbrace :: r) => some (⟨n, e, i, as⟩, r)
    | _ => none
  | _ => none

def nodesetE : List T → Option (NodeSet × List T)
  | .nodeset :: .id n :: .lbrace :: ts =>
    match infoCommaE ts with
    | some (i, .nodes :: .eq :: us) => nodesetBodyE n i us
    | _ => none
  | .nodeset :: .id n :: .eq :: ts =>
    match setExprE ts with
    | some (e, r) => some (⟨n, e, none, []⟩, r)
    | none => none
  | _ => none

theorem noOp_rbrace (r : List T) : NoOp (.rbrace :: r) := noOp_cons rfl
theorem noOp_comma (r : List T) : NoOp (.comma :: r) := noOp_cons rfl

theorem nodesetE_eq {ts : List T} {n : NodeSet} {r : List T} (h : NodeSetP ts n r) (hr : Ends r) : nodesetE ts = some (n, r) := by
  cases h with
  | ia n ts t1 t2 r i e as h0 h1 h2 =>
    cases h0
    simp only [nodesetE, infoCommaE, nodesetBodyE, setExprE_eq h1 (noOp_comma _), attributeBodyE_eq h2]
  | i n ts t1 r i e h0 h1 =>
    cases h0
    simp only [nodesetE, infoCommaE, nodesetBodyE, setExprE_eq h1 (noOp_rbrace _)]
  | a n t1 t2 r e as h1 h2 =>
    simp only [nodesetE, infoCommaE, nodesetBodyE, setExprE_eq h1 (noOp_comma _), attributeBodyE_eq h2]
  | plain n t1 r e h1 => simp only [nodesetE, infoCommaE, nodesetBodyE, setExprE_eq h1 (noOp_rbrace _)]
  | short n t1 r e h1 => simp only [nodesetE, setExprE_eq h1 hr.noOp]

theorem NodeSetP.lt {ts : List T} {n : NodeSet} {r : List T} (h : NodeSetP ts n r) : r.length < ts.length := by
  cases h with
  | ia n ts t1 t2 r i e as h0 h1 h2 => cases h0; have := h1.lt; have := h2.lt; simp only [List.length_cons] at *; omega
  | i n ts t1 r i e h0 h1 => cases h0; have := h1.lt; simp only [List.length_cons] at *; omega
  | a n t1 t2 r e as h1 h2 => have := h1.lt; have := h2.lt; simp only [List.length_cons] at *; omega
  | plain n t1 r e h1 => have := h1.lt; simp only [List.length_cons] at *; omega
  | short n t1 r e h1 => have := h1.lt; simp only [List.length_cons] at *; omega

theorem NodeSetP.head {ts : List T} {n : NodeSet} {r : List T} (h : NodeSetP ts n r) : ∃ us, ts = .nodeset :: us := by
  cases h <;> exact ⟨_, rfl⟩

def enumE : List T → Option (Enum × List T)
  | .enum :: .id n :: .lbrace :: ts =>
    match infoCommaE ts with
    | some (i, .prefix :: .eq :: .id p :: .comma :: .values :: .lbrace :: us) =>
      match idListE us with
      | some (vs, .rbrace :: .rbrace :: r) => some (⟨vs, n, p, i⟩, r)
      | _ => none
    | _ => none
  | _ => none

theorem enumE_eq {ts : List T} {e : Enum} {r : List T} (h : EnumP ts e r) : enumE ts = some (e, r) := by
  cases h with
  | info n ts t1 t2 r i p vs h0 h1 h2 =>
    cases h0
    cases h1
    cases h2 with
    | mk ts vs r h => simp only [enumE, infoCommaE, idListE_eq h (notHead_cons (fun h => by cases h))]
  | plain n t1 t2 r p vs h1 h2 =>
    cases h1
    cases h2 with
    | mk ts vs r h => simp only [enumE, infoCommaE, idListE_eq h (notHead_cons (fun h => by cases h))]

theorem EnumP.lt {ts : List T} {e : Enum} {r : List T} (h : EnumP ts e r) : r.length < ts.length := by
  cases h with
  | info n ts t1 t2 r i p vs h0 h1 h2 =>
    cases h0
    cases h1
    cases h2 with
    | mk ts vs r h => have := h.lt; simp only [List.length_cons] at *; omega
  | plain n t1 t2 r p vs h1 h2 =>
    cases h1
    cases h2 with
    | mk ts vs r h => have := h.lt; simp only [List.length_cons] at *; omega

theorem EnumP.head {ts : List T} {e : Enum} {r : List T} (h : EnumP ts e r) : ∃ us, ts = .enum :: us := by
  cases h <;> exact ⟨_, rfl⟩

/-! ## Traversals -/

def travDataItemE : List T → Option (TravData × List T)
  | .user :: .id ty :: .id n :: r => some (⟨n, .user, some ty⟩, r)
  | .id ty :: .id n :: r => some (⟨n, .link_or_enum, some ty⟩, r)
  | t :: .id n :: r =>
    match primE t with
    | some ty => some (⟨n, ty, none⟩, r)
    | none => none
  | _ => none

theorem travDataItemE_eq {ts : List T} {d : TravData} {r : List T} (h : TravDataItem ts d r) :
    travDataItemE ts = some (d, r) := by
  cases h with
  | prim t ty n r h => cases h <;> rfl
  | link ty n r => rfl
  | user ty n r => rfl

theorem TravDataItem.lt {ts : List T} {d : TravData} {r : List T} (h : TravDataItem ts d r) : r.length < ts.length := by
  cases h <;> simp only [List.length_cons] <;> omega

def travDataLoop : Nat → List TravData → List T → Option (List TravData × List T)
  | 0, _, _ => none
  | n + 1, acc, .comma :: ts =>
    match travDataItemE ts with
    | some (d, r) => travDataLoop n (d :: acc) r
    | none => none
  | _ + 1, acc, .rbrace :: r => some (acc, r)
  | _ + 1, _, _ => none

def travDataE : List T → Option (List TravData × List T)
  | .travdata :: .lbrace :: ts =>
    match travDataItemE ts with
    | some (d, r) => travDataLoop ts.length [d] r
    | none => none
  | _ => none

theorem TravDataList.lt {ts : List T} {ds : List TravData} {r : List T} (h : TravDataList ts ds r) : r.length < ts.length := by
  induction h with
  | snoc us ds d r _ h ih => have := h.lt; simp only [List.length_cons] at *; omega
  | one d r h => exact h.lt

theorem travDataList_comes {ts : List T} {ds : List TravData} {r : List T} (h : TravDataList ts ds r) :
    ∃ m, r.length < m ∧ travDataE (.travdata :: .lbrace :: ts) = travDataLoop m ds r := by
  induction h with
  | snoc us ds d r _ h ih =>
    obtain ⟨m, hm, e⟩ := ih
    simp only [List.length_cons] at hm
    match m with
    | 0 => omega
    | m + 1 => exact ⟨m, by have := h.lt; omega, by rw [e]; simp only [travDataLoop, travDataItemE_eq h]⟩
  | one d r h => exact ⟨_, h.lt, by simp only [travDataE, travDataItemE_eq h]⟩

theorem travDataE_eq {ts : List T} {ds : List TravData} {r : List T} (h : TravDataP ts ds r) : travDataE ts = some (ds, r) := by
  cases h with
  | mk ts ds r h =>
    obtain ⟨m, hm, e⟩ := travDataList_comes h
    rw [e]
    match m with
    | 0 => omega
    | m + 1 => rfl

theorem TravDataP.lt {ts : List T} {ds : List TravData} {r : List T} (h : TravDataP ts ds r) : r.length < ts.length := by
  cases h with
  | mk ts ds r h => have := h.lt; simp only [List.length_cons] at *; omega

theorem TravDataP.head {ts : List T} {ds : List TravData} {r : List T} (h : TravDataP ts ds r) : ∃ us, ts = .travdata :: us := by
  cases h; exact ⟨_, rfl⟩

/-- The inside of a traversal behind its `uid`. -/
def travBodyE (k : Nat) (n : Name) (i : Option CStr) (u : Name) : List T → Option (Traversal × List T)
  | .rbrace :: r => some (⟨n, i, u, none, [], k⟩, r)
  | .comma :: .nodes :: .eq :: ts =>
    match setExprE ts with
    | some (e, .rbrace :: r) => some (⟨n, i, u, some e, [], k⟩, r)
    | some (e, .comma :: us) =>
      match travDataE us with
      | some (ds, .rbrace :: r) => some (⟨n, i, u, some e, ds, k⟩, r)
      | _ => none
    | _ => none
  | .comma :: ts =>
    match travDataE ts with
    | some (ds, .rbrace :: r) => some (⟨n, none, u, none, ds, k⟩, r)
    | _ => none
  | _ => none

def traversalE (k : Nat) : List T → Option (Traversal × List T)
  | .traversal :: .id n :: .lbrace :: ts =>
    match infoCommaE ts with
    | some (i, .uid :: .eq :: .id u :: us) => travBodyE k n i u us
    | _ => none
  | _ => none

theorem traversalE_eq {k : Nat} {ts : List T} {t : Traversal} {r : List T} (h : TraversalP k ts t r) :
    traversalE k ts = some (t, r) := by
  cases h with
  | iund n ts t1 t2 t3 r i u e ds h0 h1 h2 h3 =>
    cases h0; cases h1
    cases h2 with
    | mk ts e r h => simp only [traversalE, infoCommaE, travBodyE, setExprE_eq h (noOp_comma _), travDataE_eq h3]
  | und n t1 t2 t3 r u e ds h1 h2 h3 =>
    cases h1
    cases h2 with
    | mk ts e r h => simp only [traversalE, infoCommaE, travBodyE, setExprE_eq h (noOp_comma _), travDataE_eq h3]
  | iud n ts t1 t2 r i u ds h0 h1 h3 =>
    cases h0; cases h1
    have e := travDataE_eq h3
    obtain ⟨us, rfl⟩ := h3.head
    simp only [traversalE, infoCommaE, travBodyE, e]
  | iun n ts t1 t2 r i u e h0 h1 h2 =>
    cases h0; cases h1
    cases h2 with
    | mk ts e r h => simp only [traversalE, infoCommaE, travBodyE, setExprE_eq h (noOp_rbrace _)]
  | iu n ts t1 r i u h0 h1 => cases h0; cases h1; rfl
  | ud n t1 t2 r u ds h1 h3 =>
    cases h1
    have e := travDataE_eq h3
    obtain ⟨us, rfl⟩ := h3.head
    simp only [traversalE, infoCommaE, travBodyE, e]
  | un n t1 t2 r u e h1 h2 =>
    cases h1
    cases h2 with
    | mk ts e r h => simp only [traversalE, infoCommaE, travBodyE, setExprE_eq h (noOp_rbrace _)]
  | u n t1 r u h1 => cases h1; rfl

theorem TraversalP.lt {k : Nat} {ts : List T} {t : Traversal} {r : List T} (h : TraversalP k ts t r) : r.length < ts.length := by
  cases h with
  | iund n ts t1 t2 t3 r i u e ds h0 h1 h2 h3 =>
    cases h0; cases h1
    cases h2 with
    | mk ts e r h => have := h.lt; have := h3.lt; simp only [List.length_cons] at *; omega
  | und n t1 t2 t3 r u e ds h1 h2 h3 =>
    cases h1
    cases h2 with
    | mk ts e r h => have := h.lt; have := h3.lt; simp only [List.length_cons] at *; omega
  | iud n ts t1 t2 r i u ds h0 h1 h3 => cases h0; cases h1; have := h3.lt; simp only [List.length_cons] at *; omega
  | iun n ts t1 t2 r i u e h0 h1 h2 =>
    cases h0; cases h1
    cases h2 with
    | mk ts e r h => have := h.lt; simp only [List.length_cons] at *; omega
  | iu n ts t1 r i u h0 h1 => cases h0; cases h1; simp only [List.length_cons]; omega
  | ud n t1 t2 r u ds h1 h3 => cases h1; have := h3.lt; simp only [List.length_cons] at *; omega
  | un n t1 t2 r u e h1 h2 =>
    cases h1
    cases h2 with
    | mk ts e r h => have := h.lt; simp only [List.length_cons] at *; omega
  | u n t1 r u h1 => cases h1; simp only [List.length_cons]; omega

theorem TraversalP.head {k : Nat} {ts : List T} {t : Traversal} {r : List T} (h : TraversalP k ts t r) :
    ∃ us, ts = .traversal :: us := by
  cases h <;> exact ⟨_, rfl⟩

/-! ## Passes -/

/-- The inside of a pass behind its information. -/
def passBodyE (n : Name) (i : Option CStr) : List T → Option (Pass × List T)
  | .uid :: .eq :: .id u :: .comma :: .func :: .eq :: .id f :: .rbrace :: r => some (⟨n, i, some u, some f⟩, r)
  | .uid :: .eq :: .id u :: .rbrace :: r => some (⟨n, i, some u, none⟩, r)
  | .func :: .eq :: .id f :: .rbrace :: r => some (⟨n, i, none, some f⟩, r)
  | _ => none

def passE : List T → Option (Pass × List T)
  | .pass :: .id n :: .lbrace :: ts =>
    match infoCommaE ts with
    | some (i, us) => passBodyE n i us
    | none => none
  | .pass :: .id n :: .eq :: .id f :: r => some (⟨n, none, none, some f⟩, r)
  | .pass :: .id n :: r => some (⟨n, none, none, none⟩, r)
  | _ => none

theorem passE_eq {ts : List T} {p : Pass} {r : List T} (h : PassP ts p r) (hr : Ends r) : passE ts = some (p, r) := by
  cases h with
  | iuf n ts t1 t2 r i u f h0 h1 h2 => cases h0; cases h1; cases h2; rfl
  | uf n t1 t2 r u f h1 h2 => cases h1; cases h2; rfl
  | u n t1 r u h1 => cases h1; rfl
  | f n t1 r f h2 => cases h2; rfl
  | fi n ts t1 r i f h0 h2 => cases h0; cases h2; rfl
  | iu n ts t1 r i u h0 h1 => cases h0; cases h1; rfl
  | plain n r => rcases hr with rfl | ⟨r', rfl⟩ <;> rfl
  | short n f r => rfl

theorem PassP.lt {ts : List T} {p : Pass} {r : List T} (h : PassP ts p r) : r.length < ts.length := by
  cases h with
  | iuf n ts t1 t2 r i u f h0 h1 h2 => cases h0; cases h1; cases h2; simp only [List.length_cons]; omega
  | uf n t1 t2 r u f h1 h2 => cases h1; cases h2; simp only [List.length_cons]; omega
  | u n t1 r u h1 => cases h1; simp only [List.length_cons]; omega
  | f n t1 r f h2 => cases h2; simp only [List.length_cons]; omega
  | fi n ts t1 r i f h0 h2 => cases h0; cases h2; simp only [List.length_cons]; omega
  | iu n ts t1 r i u h0 h1 => cases h0; cases h1; simp only [List.length_cons]; omega
  | plain n r => simp only [List.length_cons]; omega
  | short n f r => simp only [List.length_cons]; omega

theorem PassP.head {ts : List T} {p : Pass} {r : List T} (h : PassP ts p r) : ∃ us, ts = .pass :: us := by
  cases h <;> exact ⟨_, rfl⟩

end Verif.Parse
