import Verif.Model.Parse
import Verif.Spec.Syntax

/-!
# What is written according to the manual is read as what it says
-/

namespace Verif.Lemmas.Syntax
open Verif.Parse
open Verif.Str (CStr)
open Verif.Spec.Syntax (commas dotted block setting opt blockOpt sign Atom Tail SetX Edge Life word Prim Ty ctorWord Datum Action
  Actions settings)

theorem commas_cons (x y : List T) (rest : List (List T)) : commas (x :: y :: rest) = x ++ .comma :: commas (y :: rest) := rfl

theorem commas_one (x : List T) : commas [x] = x := rfl

/-! ## Lists of names -/

theorem idList_of (n : Name) (ns : List Name) (r : List T) :
    IdList (commas ((n :: ns).map fun m => [.id m]) ++ r) (n :: ns) r := by
  induction ns generalizing n with
  | nil => exact .one n r
  | cons m ns ih => exact .cons n _ (m :: ns) r (ih m)

theorem setLiterals_more (ts : List T) (ns : List Name) (m : Name) (ms : List Name) (r : List T)
    (h : ∀ r', SetLiterals (ts ++ r') ns r') :
    SetLiterals (ts ++ .comma :: commas ((m :: ms).map fun m => [.id m]) ++ r) (ns ++ m :: ms) r := by
  induction ms generalizing ts ns m with
  | nil =>
    have := SetLiterals.snoc (ts ++ .comma :: .id m :: r) ns m r (h _)
    simpa only [List.map, commas_one, List.append_assoc, List.cons_append, List.nil_append] using this
  | cons k ms ih =>
    have := ih (ts ++ [.comma, .id m]) (ns ++ [m]) k (fun r' => by
      have := SetLiterals.snoc (ts ++ .comma :: .id m :: r') ns m r' (h _)
      simpa only [List.append_assoc, List.cons_append, List.nil_append] using this)
    simpa only [List.map, commas_cons, List.append_assoc, List.cons_append, List.nil_append] using this

theorem setLiterals_of (n : Name) (ns : List Name) (r : List T) :
    SetLiterals (commas ((n :: ns).map fun m => [.id m]) ++ r) (n :: ns) r := by
  cases ns with
  | nil => exact .one n r
  | cons m ns =>
    have := setLiterals_more [.id n] [n] m ns r (fun r' => .one n r')
    simpa only [List.map, commas_cons, List.append_assoc, List.cons_append, List.nil_append] using this

theorem rangeSpec_of (n : Name) (ns : List Name) (r : List T) : RangeSpec (dotted (n :: ns) ++ r) (n :: ns) r := by
  induction ns generalizing n with
  | nil => exact .one n r
  | cons m ns ih => exact .cons n _ (m :: ns) r (ih m)

/-! ## Set expressions -/

theorem operation_of {ts us r : List T} {a b : SetE} (o : SO) (h1 : SetExpr ts a (sign o :: us)) (h2 : SetOperand us b r) :
    SetOperation ts (.op o a b) r := by
  cases o with
  | iunion => exact .union ts a us b r h1 h2
  | intersect => exact .intersect ts a us b r h1 h2
  | difference => exact .difference ts a us b r h1 h2

mutual
theorem atom_reads (a : Atom) (r : List T) : SetOperand (a.spell ++ r) a.tree r := by
  cases a with
  | lit n ns =>
    have := SetOperand.literal _ (n :: ns) r (setLiterals_of n ns (.rbrace :: r))
    simpa only [Atom.spell, Atom.tree, List.append_assoc, List.cons_append, List.nil_append] using this
  | ref n => exact .ref n r
  | paren a o b rest =>
    have h1 := atom_reads a (sign o :: (b.spell ++ (rest.spell ++ .rpar :: r)))
    have h2 := atom_reads b (rest.spell ++ .rpar :: r)
    have h3 := operation_of o (.operand _ _ _ h1) h2
    have h4 := tail_oper rest _ (.op o a.tree b.tree) (.rpar :: r) h3
    have := SetOperand.group _ _ r h4
    simpa only [Atom.spell, Atom.tree, List.append_assoc, List.cons_append, List.nil_append] using this
theorem tail_oper (t : Tail) (ts : List T) (e : SetE) (r : List T) (h : SetOperation ts e (t.spell ++ r)) :
    SetOperation ts (t.tree e) r := by
  cases t with
  | nil => exact h
  | cons o a rest =>
    have h2 := atom_reads a (rest.spell ++ r)
    have h3 := operation_of (ts := ts) (a := e) o (us := a.spell ++ (rest.spell ++ r))
      (.oper _ _ _ (by simpa only [Tail.spell, List.append_assoc, List.cons_append] using h)) h2
    exact tail_oper rest ts (.op o e a.tree) r h3
end

theorem setX_reads (x : SetX) (r : List T) : SetExpr (x.spell ++ r) x.tree r := by
  obtain ⟨a, t⟩ := x
  cases t with
  | nil =>
    have := SetExpr.operand _ _ _ (atom_reads a r)
    simpa only [SetX.spell, SetX.tree, Tail.spell, Tail.tree, List.append_nil] using this
  | cons o b rest =>
    have h1 := atom_reads a (sign o :: (b.spell ++ (rest.spell ++ r)))
    have h2 := atom_reads b (rest.spell ++ r)
    have h3 := operation_of o (.operand _ _ _ h1) h2
    have := SetExpr.oper _ _ _ (tail_oper rest _ _ r h3)
    simpa only [SetX.spell, SetX.tree, Tail.spell, Tail.tree, List.append_assoc, List.cons_append] using this

/-! ## Lifetimes -/

theorem begin_reads (e : Edge) (he : e.inclusive = true → e.target ≠ []) (r : List T) :
    LifetimeRange (e.spellBegin ++ .arrow :: r) e.tree (.arrow :: r) := by
  obtain ⟨b, t⟩ := e
  cases t with
  | nil =>
    cases b with
    | true => exact absurd rfl (he rfl)
    | false => exact .lpar _
  | cons n ns =>
    cases b with
    | true => exact .since _ _ _ (rangeSpec_of n ns _)
    | false => exact .after _ _ _ (rangeSpec_of n ns _)

theorem end_reads (e : Edge) (he : e.inclusive = true → e.target ≠ []) (r : List T) :
    LifetimeRange (e.spellEnd ++ r) e.tree r := by
  obtain ⟨b, t⟩ := e
  cases t with
  | nil =>
    cases b with
    | true => exact absurd rfl (he rfl)
    | false => exact .rpar _
  | cons n ns =>
    cases b with
    | true =>
      have := LifetimeRange.upTo _ _ r (rangeSpec_of n ns (.rbrack :: r))
      simpa only [Edge.spellEnd, Edge.tree, List.append_assoc, List.cons_append, List.nil_append] using this
    | false =>
      have := LifetimeRange.before _ _ r (rangeSpec_of n ns (.rpar :: r))
      simpa only [Edge.spellEnd, Edge.tree, List.append_assoc, List.cons_append, List.nil_append] using this

theorem life_reads (l : Life) (hl : l.Ok) (r : List T) : LifetimeP (l.spell ++ r) l.tree r := by
  obtain ⟨k, g⟩ := l
  cases g with
  | none =>
    rcases hl with h | h
    · cases h; exact .disallowed r
    · cases h; exact .mandatory r
  | some g =>
    obtain ⟨b, e⟩ := g
    have h1 := begin_reads b hl.1 (e.spellEnd ++ r)
    have h2 := end_reads e hl.2 r
    have e1 : (Life.mk k (some (b, e))).spell ++ r = word k :: (b.spellBegin ++ .arrow :: (e.spellEnd ++ r)) := by
      simp only [Life.spell, List.append_assoc, List.cons_append]
    rw [e1]
    cases k with
    | disallowed => exact .disallowedIn _ _ _ _ r h1 h2
    | mandatory => exact .mandatoryIn _ _ _ _ r h1 h2
    | optional => exact .optionalIn _ _ _ _ r h1 h2
    | allowed => exact .allowedIn _ _ _ _ r h1 h2

theorem lives_reads (l : Life) (ls : List Life) (h : ∀ x ∈ l :: ls, x.Ok) (r : List T) :
    Lifetimes (commas ((l :: ls).map Life.spell) ++ r) ((l :: ls).map Life.tree) r := by
  induction ls generalizing l with
  | nil => exact .one _ _ r (life_reads l (h l (List.mem_cons_self ..)) r)
  | cons m ls ih =>
    have h1 := life_reads l (h l (List.mem_cons_self ..)) (.comma :: (commas ((m :: ls).map Life.spell) ++ r))
    have := Lifetimes.cons _ _ _ _ r h1 (ih m fun x hx => h x (List.mem_cons_of_mem _ hx))
    simpa only [List.map, commas_cons, List.append_assoc, List.cons_append] using this

/-! ## Children and attributes -/

theorem child_reads (c : Spec.Syntax.Child) (hc : c.Ok) (r : List T) :
    ChildP (c.spell ++ r) c.tree r := by
  obtain ⟨ty, n, os⟩ := c
  cases os with
  | none => exact .plain ty n r
  | some o =>
    obtain ⟨b, ls⟩ := o
    have hok := hc b ls rfl
    cases ls with
    | nil =>
      cases b with
      | true => exact .ctor ty n r
      | false => exact .braces ty n r
    | cons l ls =>
      have h := lives_reads l ls hok (.rbrace :: r)
      cases b with
      | true =>
        have := ChildP.both ty n _ _ r h
        simpa only [Spec.Syntax.Child.spell, Spec.Syntax.Child.tree, ctorWord, List.map, commas_cons, List.append_assoc,
          List.cons_append, List.nil_append] using this
      | false =>
        have := ChildP.life ty n _ _ r h
        simpa only [Spec.Syntax.Child.spell, Spec.Syntax.Child.tree, ctorWord, List.map, List.append_assoc,
          List.cons_append, List.nil_append] using this

theorem children_reads (c : Spec.Syntax.Child) (cs : List Spec.Syntax.Child) (h : ∀ x ∈ c :: cs, x.Ok) (r : List T) :
    Children (commas ((c :: cs).map Spec.Syntax.Child.spell) ++ .rbrace :: r) ((c :: cs).map Spec.Syntax.Child.tree) (.rbrace :: r) := by
  induction cs generalizing c with
  | nil => exact .one _ _ _ (child_reads c (h c (List.mem_cons_self ..)) _)
  | cons d cs ih =>
    have h1 := child_reads c (h c (List.mem_cons_self ..))
      (.comma :: (commas ((d :: cs).map Spec.Syntax.Child.spell) ++ .rbrace :: r))
    have := Children.cons _ _ _ _ _ h1 (ih d fun x hx => h x (List.mem_cons_of_mem _ hx))
    simpa only [List.map, commas_cons, List.append_assoc, List.cons_append] using this

/-- The option in the tree of the parser. -/
def optTree : Spec.Syntax.Opt → Opt
  | .constructor => .constructor
  | .inherited => .inherited
  | .synthesized => .synthesized
  | .lifetime l => .lifetime l.tree

theorem opt_reads (o : Spec.Syntax.Opt) (ho : ∀ l, o.life = some l → l.Ok) (r : List T) : Keyword (o.spell ++ r) (optTree o) r := by
  cases o with
  | constructor => exact .constructor r
  | inherited => exact .inherited r
  | synthesized => exact .synthesized r
  | lifetime l => exact .lifetime _ _ r (life_reads l (ho l rfl) r)

theorem opts_reads (os : List Spec.Syntax.Opt) (h : ∀ o ∈ os, ∀ l, o.life = some l → l.Ok) (r : List T) :
    Keywords (commas (os.map Spec.Syntax.Opt.spell) ++ r) (os.map optTree) r := by
  induction os with
  | nil => exact .empty r
  | cons o os ih =>
    cases os with
    | nil => exact .one _ _ r (opt_reads o (h o (List.mem_cons_self ..)) r)
    | cons p os =>
      have h1 := opt_reads o (h o (List.mem_cons_self ..)) (.comma :: (commas ((p :: os).map Spec.Syntax.Opt.spell) ++ r))
      have := Keywords.cons _ _ _ _ r h1 (ih fun x hx => h x (List.mem_cons_of_mem _ hx))
      simpa only [List.map, commas_cons, List.append_assoc, List.cons_append] using this

theorem optionsLoop_eq (os : List Spec.Syntax.Opt) (d : Opts) :
    optionsLoop d (os.map optTree) = ⟨d.lifetime ++ (os.filterMap Spec.Syntax.Opt.life).map Life.tree,
      d.constructor || os.any Spec.Syntax.Opt.isCtor, d.inherited || os.any Spec.Syntax.Opt.isInherited,
      d.synthesized || os.any Spec.Syntax.Opt.isSynthesized⟩ := by
  induction os generalizing d with
  | nil => simp [optionsLoop]
  | cons o os ih =>
    cases o <;> simp [optTree, optionsLoop, ih, List.filterMap_cons, Spec.Syntax.Opt.life, Spec.Syntax.Opt.isCtor, Spec.Syntax.Opt.isInherited,
      Spec.Syntax.Opt.isSynthesized]

theorem prim_reads (p : Prim) : Primitive p.spell p.tree := by
  cases p <;> constructor

theorem attr_reads (a : Spec.Syntax.Attr) (ha : a.Ok) (r : List T) : AttrP (a.spell ++ r) a.tree r := by
  obtain ⟨ty, n, os⟩ := a
  cases os with
  | none =>
    cases ty with
    | prim p => exact .prim _ _ n r (prim_reads p)
    | named m => exact .link m n r
    | user m => exact .user m n r
  | some os =>
    have h := opts_reads os (ha os rfl) (.rbrace :: r)
    have ho : parse_attribute_options (os.map optTree) = _ := optionsLoop_eq os _
    cases ty with
    | prim p =>
      have := AttrP.primOpts _ _ n _ _ r (prim_reads p) h
      simpa [Spec.Syntax.Attr.spell, Spec.Syntax.Attr.tree, Ty.spell, Ty.at, Ty.ref, ho, mkAttr] using this
    | named m =>
      have := AttrP.linkOpts m n _ _ r h
      simpa [Spec.Syntax.Attr.spell, Spec.Syntax.Attr.tree, Ty.spell, Ty.at, Ty.ref, ho, mkAttr] using this
    | user m =>
      have := AttrP.userOpts m n _ _ r h
      simpa [Spec.Syntax.Attr.spell, Spec.Syntax.Attr.tree, Ty.spell, Ty.at, Ty.ref, ho, mkAttr] using this

theorem attrs_reads (a : Spec.Syntax.Attr) (as : List Spec.Syntax.Attr) (h : ∀ x ∈ a :: as, x.Ok) (r : List T) :
    Attributes (commas ((a :: as).map Spec.Syntax.Attr.spell) ++ r) ((a :: as).map Spec.Syntax.Attr.tree) r := by
  induction as generalizing a with
  | nil => exact .one _ _ r (attr_reads a (h a (List.mem_cons_self ..)) r)
  | cons b as ih =>
    have h1 := attr_reads a (h a (List.mem_cons_self ..)) (.comma :: (commas ((b :: as).map Spec.Syntax.Attr.spell) ++ r))
    have := Attributes.cons _ _ _ _ r h1 (ih b fun x hx => h x (List.mem_cons_of_mem _ hx))
    simpa only [List.map, commas_cons, List.append_assoc, List.cons_append] using this

/-! ## Equations -/

theorem ref_reads (d : Spec.Syntax.Ref) (r : List T) : RefP (d.spell ++ r) d.tree r := by
  obtain ⟨n, a⟩ := d
  cases n with
  | none => exact .this a r
  | some n => exact .child n a r

theorem deps_reads (d : Spec.Syntax.Ref) (ds : List Spec.Syntax.Ref) (r : List T) :
    Dependencies (commas ((d :: ds).map Spec.Syntax.Ref.spell) ++ r) ((d :: ds).map Spec.Syntax.Ref.tree) r := by
  induction ds generalizing d with
  | nil => exact .one _ _ r (ref_reads d r)
  | cons e ds ih =>
    have h1 := ref_reads d (.comma :: (commas ((e :: ds).map Spec.Syntax.Ref.spell) ++ r))
    have := Dependencies.cons _ _ _ _ r h1 (ih e)
    simpa only [List.map, commas_cons, List.append_assoc, List.cons_append] using this

theorem equation_reads (e : Spec.Syntax.Equation) (r : List T) : EquationP (e.spell ++ r) e.tree r := by
  obtain ⟨t, as⟩ := e
  cases as with
  | none =>
    have := EquationP.mk _ _ _ [] r (ref_reads t _) (.empty r)
    simpa [Spec.Syntax.Equation.spell, Spec.Syntax.Equation.tree] using this
  | some ds =>
    cases ds with
    | nil =>
      have := EquationP.mk _ _ _ [] r (ref_reads t _) (.mk _ _ r (.empty (.rbrace :: r)))
      simpa [Spec.Syntax.Equation.spell, Spec.Syntax.Equation.tree, commas] using this
    | cons d ds =>
      have := EquationP.mk _ _ _ _ r (ref_reads t _) (.mk _ _ r (.mk _ _ (.rbrace :: r) (deps_reads d ds _)))
      simpa [Spec.Syntax.Equation.spell, Spec.Syntax.Equation.tree] using this

theorem equations_reads (e : Spec.Syntax.Equation) (es : List Spec.Syntax.Equation) (r : List T) :
    Equations (commas ((e :: es).map Spec.Syntax.Equation.spell) ++ r) ((e :: es).map Spec.Syntax.Equation.tree) r := by
  induction es generalizing e with
  | nil => exact .one _ _ r (equation_reads e r)
  | cons f es ih =>
    have h1 := equation_reads e (.comma :: (commas ((f :: es).map Spec.Syntax.Equation.spell) ++ r))
    have := Equations.cons _ _ _ _ r h1 (ih f)
    simpa only [List.map, commas_cons, List.append_assoc, List.cons_append] using this

/-! ## Nodes -/

theorem block_append (k : T) (xs : List (List T)) (r : List T) : block k xs ++ r = k :: .lbrace :: (commas xs ++ .rbrace :: r) := by
  simp only [block, List.append_assoc, List.cons_append, List.nil_append]

theorem cb (c : Spec.Syntax.Child) (cs : List Spec.Syntax.Child) (h : ∀ x ∈ c :: cs, x.Ok) (r : List T) :
    ChildrenBody (block .children ((c :: cs).map Spec.Syntax.Child.spell) ++ r) ((c :: cs).map Spec.Syntax.Child.tree) r := by
  rw [block_append]; exact .mk _ _ r (children_reads c cs h r)

theorem ab (a : Spec.Syntax.Attr) (as : List Spec.Syntax.Attr) (h : ∀ x ∈ a :: as, x.Ok) (r : List T) :
    AttributeBody (block .attributes ((a :: as).map Spec.Syntax.Attr.spell) ++ r) ((a :: as).map Spec.Syntax.Attr.tree) r := by
  rw [block_append]; exact .mk _ _ r (attrs_reads a as h _)

theorem eb (e : Spec.Syntax.Equation) (es : List Spec.Syntax.Equation) (r : List T) :
    EquationBody (block .equations ((e :: es).map Spec.Syntax.Equation.spell) ++ r) ((e :: es).map Spec.Syntax.Equation.tree) r := by
  rw [block_append]; exact .mk _ _ r (equations_reads e es _)

theorem lb (l : Life) (ls : List Life) (h : ∀ x ∈ l :: ls, x.Ok) (r : List T) :
    NodeLifetimes (block .lifetime ((l :: ls).map Life.spell) ++ r) ((l :: ls).map Life.tree) r := by
  rw [block_append]; exact .mk _ _ r (lives_reads l ls h _)

theorem nodeHead_of (b : Bool) (n : Name) (r : List T) :
    NodeHead ((match b with | true => [.root] | false => []) ++ .node :: .id n :: .lbrace :: r) b n r := by
  cases b with
  | true => exact .mk _ _ _ _ (.root _)
  | false => exact .mk _ _ _ _ (.empty _)

set_option linter.unusedSimpArgs false in
/-- The node before it gets its number. -/
theorem node_reads (n : Spec.Syntax.Node) (hn : n.Ok) (r : List T) : NodeP (n.spell ++ r) (n.tree 0) r := by
  obtain ⟨b, m, cs, as, es, ls, k⟩ := n
  obtain ⟨hc, ha, hl, hb, hk⟩ := hn
  simp only at hc ha hl hb hk
  have hd := fun us => nodeHead_of b m us
  simp only [Spec.Syntax.Node.spell, Spec.Syntax.Node.parts, List.append_assoc, List.cons_append]
  cases ls with
  | cons l ls =>
    cases k with
    | true =>
      exact absurd (hk rfl) (by simp)
    | false =>
      cases cs with
      | cons c cs =>
        cases as with
        | cons a as =>
          cases es with
          | cons e es =>
            simp only [List.map_cons, List.map_nil, blockOpt, commas, List.nil_append, List.append_assoc, List.cons_append]
            exact .cael _ _ _ _ _ _ b m _ _ _ _ (hd _) (cb c cs hc _) (ab a as ha _) (eb e es _) (lb l ls hl _)
          | nil =>
            simp only [List.map_cons, List.map_nil, blockOpt, commas, List.nil_append, List.append_assoc, List.cons_append]
            exact .cal _ _ _ _ _ b m _ _ _ (hd _) (cb c cs hc _) (ab a as ha _) (lb l ls hl _)
        | nil =>
          cases es with
          | cons e es =>
            simp only [List.map_cons, List.map_nil, blockOpt, commas, List.nil_append, List.append_assoc, List.cons_append]
            exact .cel _ _ _ _ _ b m _ _ _ (hd _) (cb c cs hc _) (eb e es _) (lb l ls hl _)
          | nil =>
            simp only [List.map_cons, List.map_nil, blockOpt, commas, List.nil_append, List.append_assoc, List.cons_append]
            exact .cl _ _ _ _ b m _ _ (hd _) (cb c cs hc _) (lb l ls hl _)
      | nil =>
        cases as with
        | cons a as =>
          cases es with
          | cons e es =>
            simp only [List.map_cons, List.map_nil, blockOpt, commas, List.nil_append, List.append_assoc, List.cons_append]
            exact .ael _ _ _ _ _ b m _ _ _ (hd _) (ab a as ha _) (eb e es _) (lb l ls hl _)
          | nil =>
            simp only [List.map_cons, List.map_nil, blockOpt, commas, List.nil_append, List.append_assoc, List.cons_append]
            exact .al _ _ _ _ b m _ _ (hd _) (ab a as ha _) (lb l ls hl _)
        | nil =>
          rcases hb (Or.inl (by simp)) with h | h <;> exact absurd rfl h
  | nil =>
    cases k with
    | true =>
      cases cs with
      | cons c cs =>
        cases as with
        | cons a as =>
          cases es with
          | cons e es =>
            simp only [List.map_cons, List.map_nil, blockOpt, commas, List.nil_append, List.append_assoc, List.cons_append]
            exact .cael _ _ _ _ _ _ b m _ _ _ _ (hd _) (cb c cs hc _) (ab a as ha _) (eb e es _) (.empty _)
          | nil =>
            simp only [List.map_cons, List.map_nil, blockOpt, commas, List.nil_append, List.append_assoc, List.cons_append]
            exact .cal _ _ _ _ _ b m _ _ _ (hd _) (cb c cs hc _) (ab a as ha _) (.empty _)
        | nil =>
          cases es with
          | cons e es =>
            simp only [List.map_cons, List.map_nil, blockOpt, commas, List.nil_append, List.append_assoc, List.cons_append]
            exact .cel _ _ _ _ _ b m _ _ _ (hd _) (cb c cs hc _) (eb e es _) (.empty _)
          | nil =>
            simp only [List.map_cons, List.map_nil, blockOpt, commas, List.nil_append, List.append_assoc, List.cons_append]
            exact .cl _ _ _ _ b m _ _ (hd _) (cb c cs hc _) (.empty _)
      | nil =>
        cases as with
        | cons a as =>
          cases es with
          | cons e es =>
            simp only [List.map_cons, List.map_nil, blockOpt, commas, List.nil_append, List.append_assoc, List.cons_append]
            exact .ael _ _ _ _ _ b m _ _ _ (hd _) (ab a as ha _) (eb e es _) (.empty _)
          | nil =>
            simp only [List.map_cons, List.map_nil, blockOpt, commas, List.nil_append, List.append_assoc, List.cons_append]
            exact .al _ _ _ _ b m _ _ (hd _) (ab a as ha _) (.empty _)
        | nil =>
          rcases hb (Or.inr rfl) with h | h <;> exact absurd rfl h
    | false =>
      cases cs with
      | cons c cs =>
        cases as with
        | cons a as =>
          cases es with
          | cons e es =>
            simp only [List.map_cons, List.map_nil, blockOpt, commas, List.nil_append, List.append_assoc, List.cons_append]
            exact .cae _ _ _ _ _ b m _ _ _ (hd _) (cb c cs hc _) (ab a as ha _) (eb e es _)
          | nil =>
            simp only [List.map_cons, List.map_nil, blockOpt, commas, List.nil_append, List.append_assoc, List.cons_append]
            exact .ca _ _ _ _ b m _ _ (hd _) (cb c cs hc _) (ab a as ha _)
        | nil =>
          cases es with
          | cons e es =>
            simp only [List.map_cons, List.map_nil, blockOpt, commas, List.nil_append, List.append_assoc, List.cons_append]
            exact .ce _ _ _ _ b m _ _ (hd _) (cb c cs hc _) (eb e es _)
          | nil =>
            simp only [List.map_cons, List.map_nil, blockOpt, commas, List.nil_append, List.append_assoc, List.cons_append]
            exact .c _ _ _ b m _ (hd _) (cb c cs hc _)
      | nil =>
        cases as with
        | cons a as =>
          cases es with
          | cons e es =>
            simp only [List.map_cons, List.map_nil, blockOpt, commas, List.nil_append, List.append_assoc, List.cons_append]
            exact .ae _ _ _ _ b m _ _ (hd _) (ab a as ha _) (eb e es _)
          | nil =>
            simp only [List.map_cons, List.map_nil, blockOpt, commas, List.nil_append, List.append_assoc, List.cons_append]
            exact .a _ _ _ b m _ (hd _) (ab a as ha _)
        | nil =>
          cases es with
          | cons e es =>
            simp only [List.map_cons, List.map_nil, blockOpt, commas, List.nil_append, List.append_assoc, List.cons_append]
            exact .e _ _ _ b m _ (hd _) (eb e es _)
          | nil =>
            simp only [List.map_cons, List.map_nil, blockOpt, commas, List.nil_append, List.append_assoc, List.cons_append]
            exact .none _ _ b m  (hd _)

/-! ## Nodesets and enumerations -/

theorem nodeset_reads (n : Spec.Syntax.NodeSet) (hn : n.Ok) (r : List T) : NodeSetP (n.spell ++ r) n.tree r := by
  cases n with
  | short n x => exact .short n _ r _ (setX_reads x r)
  | long n i x as =>
    cases as with
    | nil =>
      have hx := setX_reads x (.rbrace :: r)
      cases i with
      | none =>
        have := NodeSetP.plain n _ r _ hx
        simpa [Spec.Syntax.NodeSet.spell, Spec.Syntax.NodeSet.tree, opt, blockOpt, commas] using this
      | some i =>
        have := NodeSetP.i n _ _ r i _ (.mk i _) hx
        simpa [Spec.Syntax.NodeSet.spell, Spec.Syntax.NodeSet.tree, opt, setting, blockOpt, commas] using this
    | cons a as =>
      have ha := ab a as hn (.rbrace :: r)
      have hx := setX_reads x (.comma :: (block .attributes ((a :: as).map Spec.Syntax.Attr.spell) ++ .rbrace :: r))
      cases i with
      | none =>
        have := NodeSetP.a n _ _ r _ _ hx ha
        simpa [Spec.Syntax.NodeSet.spell, Spec.Syntax.NodeSet.tree, opt, blockOpt, commas] using this
      | some i =>
        have := NodeSetP.ia n _ _ _ r i _ _ (.mk i _) hx ha
        simpa [Spec.Syntax.NodeSet.spell, Spec.Syntax.NodeSet.tree, opt, setting, blockOpt, commas] using this

theorem enum_reads (e : Spec.Syntax.Enum) (he : e.Ok) (r : List T) : EnumP (e.spell ++ r) e.tree r := by
  obtain ⟨n, i, p, vs⟩ := e
  cases vs with
  | nil => exact absurd rfl he
  | cons v vs =>
    have hv := EnumValues.mk _ _ (.rbrace :: r) (idList_of v vs (.rbrace :: .rbrace :: r))
    cases i with
    | none =>
      have := EnumP.plain n _ _ r p _ (.mk p _) hv
      simpa [Spec.Syntax.Enum.spell, Spec.Syntax.Enum.tree, opt, setting, block, commas] using this
    | some i =>
      have := EnumP.info n _ _ _ r i p _ (.mk i _) (.mk p _) hv
      simpa [Spec.Syntax.Enum.spell, Spec.Syntax.Enum.tree, opt, setting, block, commas] using this

/-! ## Traversals and passes -/

theorem datum_reads (d : Datum) (r : List T) : TravDataItem (d.spell ++ r) d.tree r := by
  obtain ⟨ty, n⟩ := d
  cases ty with
  | prim p => exact .prim _ _ n r (prim_reads p)
  | named m => exact .link m n r
  | user m => exact .user m n r

theorem data_more (ts : List T) (xs : List TravData) (d : Datum) (ds : List Datum) (r : List T)
    (h : ∀ r', TravDataList (ts ++ r') xs r') :
    TravDataList (ts ++ .comma :: commas ((d :: ds).map Datum.spell) ++ r) (((d :: ds).map Datum.tree).reverse ++ xs) r := by
  induction ds generalizing ts xs d with
  | nil =>
    have := TravDataList.snoc _ _ xs _ r (h (.comma :: (d.spell ++ r))) (datum_reads d r)
    simpa only [List.map, commas_one, List.append_assoc, List.cons_append, List.nil_append, List.reverse_singleton] using this
  | cons e ds ih =>
    have := ih (ts ++ .comma :: d.spell) (d.tree :: xs) e (fun r' => by
      have := TravDataList.snoc _ _ xs _ r' (h (.comma :: (d.spell ++ r'))) (datum_reads d r')
      simpa only [List.append_assoc, List.cons_append] using this)
    simpa only [List.map, commas_cons, List.append_assoc, List.cons_append, List.nil_append, List.reverse_cons] using this

theorem data_reads (d : Datum) (ds : List Datum) (r : List T) :
    TravDataList (commas ((d :: ds).map Datum.spell) ++ r) ((d :: ds).map Datum.tree).reverse r := by
  cases ds with
  | nil => exact .one _ _ r (datum_reads d r)
  | cons e ds =>
    have := data_more d.spell [d.tree] e ds r (fun r' => .one _ _ r' (datum_reads d r'))
    simpa only [List.map, commas_cons, List.append_assoc, List.cons_append, List.nil_append, List.reverse_cons] using this

theorem db (d : Datum) (ds : List Datum) (r : List T) :
    TravDataP (block .travdata ((d :: ds).map Datum.spell) ++ r) ((d :: ds).map Datum.tree).reverse r := by
  rw [block_append]; exact .mk _ _ r (data_reads d ds _)

theorem traversal_reads (k : Nat) (t : Spec.Syntax.Traversal) (ht : t.Ok) (r : List T) :
    TraversalP k (t.spell ++ r) (t.tree k) r := by
  obtain ⟨n, i, u, x, ds⟩ := t
  cases ds with
  | nil =>
    cases x with
    | none =>
      cases i with
      | none => exact .u n _ r u (.mk u _)
      | some i => exact .iu n _ _ r i u (.mk i _) (.mk u _)
    | some x =>
      have hx := TraversalNodes.mk _ _ _ (setX_reads x (.rbrace :: r))
      cases i with
      | none =>
        have := TraversalP.un (k := k) n _ _ r u _ (.mk u _) hx
        simpa [Spec.Syntax.Traversal.spell, Spec.Syntax.Traversal.tree, opt, setting, blockOpt, commas] using this
      | some i =>
        have := TraversalP.iun (k := k) n _ _ _ r i u _ (.mk i _) (.mk u _) hx
        simpa [Spec.Syntax.Traversal.spell, Spec.Syntax.Traversal.tree, opt, setting, blockOpt, commas] using this
  | cons d ds =>
    have hd := db d ds (.rbrace :: r)
    cases x with
    | none =>
      cases i with
      | none =>
        have := TraversalP.ud (k := k) n _ _ r u _ (.mk u _) hd
        simpa [Spec.Syntax.Traversal.spell, Spec.Syntax.Traversal.tree, opt, setting, blockOpt, commas] using this
      | some i => exact absurd (ht (by simp) rfl) (by simp)
    | some x =>
      have hx := TraversalNodes.mk _ _ _ (setX_reads x (.comma :: (block .travdata ((d :: ds).map Datum.spell) ++ .rbrace :: r)))
      cases i with
      | none =>
        have := TraversalP.und (k := k) n _ _ _ r u _ _ (.mk u _) hx hd
        simpa [Spec.Syntax.Traversal.spell, Spec.Syntax.Traversal.tree, opt, setting, blockOpt, commas] using this
      | some i =>
        have := TraversalP.iund (k := k) n _ _ _ _ r i u _ _ (.mk i _) (.mk u _) hx hd
        simpa [Spec.Syntax.Traversal.spell, Spec.Syntax.Traversal.tree, opt, setting, blockOpt, commas] using this

theorem pass_reads (p : Spec.Syntax.Pass) (hp : p.Ok) (r : List T) : PassP (p.spell ++ r) p.tree r := by
  cases p with
  | plain n => exact .plain n r
  | short n f => exact .short n f r
  | long n i u f =>
    cases i with
    | none =>
      cases u with
      | none =>
        cases f with
        | none => rcases hp with h | h <;> exact absurd rfl h
        | some f => exact .f n _ r f (.mk f _)
      | some u =>
        cases f with
        | none => exact .u n _ r u (.mk u _)
        | some f => exact .uf n _ _ r u f (.mk u _) (.mk f _)
    | some i =>
      cases u with
      | none =>
        cases f with
        | none => rcases hp with h | h <;> exact absurd rfl h
        | some f => exact .fi n _ _ r i f (.mk i _) (.mk f _)
      | some u =>
        cases f with
        | none => exact .iu n _ _ r i u (.mk i _) (.mk u _)
        | some f => exact .iuf n _ _ _ r i u f (.mk i _) (.mk u _) (.mk f _)

/-! ## Phases -/

/-- The state with phases, passes and traversals more, the last one first. -/
def plus (s : St) (ph : List Phase) (ps : List Spec.Syntax.Pass) (ts : List Spec.Syntax.Traversal) : St :=
  { s with
    phases := ph.reverse ++ s.phases
    passes := (ps.map Spec.Syntax.Pass.tree).reverse ++ s.passes
    traversals := (ts.mapIdx fun i t => t.tree (s.travIndex + i)).reverse ++ s.traversals
    travIndex := s.travIndex + ts.length }

theorem plus_nil (s : St) : plus s [] [] [] = s := rfl

theorem plus_plus (s : St) (a b : List Phase) (c d : List Spec.Syntax.Pass) (e f : List Spec.Syntax.Traversal) :
    plus (plus s a c e) b d f = plus s (a ++ b) (c ++ d) (e ++ f) := by
  simp only [plus, List.reverse_append, List.append_assoc, List.map_append, List.mapIdx_append, List.length_append, Nat.add_assoc,
    Nat.add_comm, Nat.add_left_comm]

theorem plus_phase (s : St) (a : List Phase) (c : List Spec.Syntax.Pass) (e : List Spec.Syntax.Traversal) (p : Phase) :
    (plus s a c e).addPhase p = plus s (a ++ [p]) c e := by
  simp only [plus, St.addPhase, List.reverse_append, List.reverse_singleton, List.cons_append, List.nil_append]

theorem plus_pass (s : St) (p : Spec.Syntax.Pass) : s.addPass p.tree = plus s [] [p] [] := rfl

theorem plus_traversal (s : St) (t : Spec.Syntax.Traversal) : s.addTraversal (t.tree s.travIndex) = plus s [] [] [t] := rfl

theorem phaseHeader_of (b : Bool) (n : Name) (r : List T) :
    PhaseHeader (Spec.Syntax.startWord b ++ .phase :: .id n :: .lbrace :: r) b n r := by
  cases b with
  | true => exact .mk _ _ _ _ (.start _)
  | false => exact .mk _ _ _ _ (.empty _)

theorem cycleHeader_of (b : Bool) (n : Name) (r : List T) :
    CycleHeader (Spec.Syntax.startWord b ++ .cycle :: .id n :: .lbrace :: r) b n r := by
  cases b with
  | true => exact .mk _ _ _ _ (.start _)
  | false => exact .mk _ _ _ _ (.empty _)

theorem phase_of (st c : Bool) (n : Name) (i : Option CStr) (u g : Option Name) (hg : c = true → i = none ∨ u = none ∨ g = none)
    {s s' : St} {ts : List T} {as : List Name} {r : List T} (h : ActionsBody s ts as s' (.rbrace :: r)) :
    PhaseP s (Spec.Syntax.startWord st ++
      Spec.Syntax.phaseWord c :: .id n :: .lbrace :: (settings i u g ++ ts)) ⟨n, st, c, i, u, g, as⟩ s' r := by
  cases c with
  | false =>
    have hd := phaseHeader_of st n
    cases i with
    | none =>
      cases u with
      | none =>
        cases g with
        | none => exact .plain _ _ _ _ _ _ _ _ (hd _) h
        | some g => exact .g _ _ _ _ _ _ _ _ _ _ (hd _) (.mk _ _) h
      | some u =>
        cases g with
        | none => exact .u _ _ _ _ _ _ _ _ _ _ (hd _) (.mk _ _) h
        | some g => exact .ug _ _ _ _ _ _ _ _ _ _ _ _ (hd _) (.mk _ _) (.mk _ _) h
    | some i =>
      cases u with
      | none =>
        cases g with
        | none => exact .i _ _ _ _ _ _ _ _ _ _ (hd _) (.mk _ _) h
        | some g => exact .ig _ _ _ _ _ _ _ _ _ _ _ _ (hd _) (.mk _ _) (.mk _ _) h
      | some u =>
        cases g with
        | none => exact .iu _ _ _ _ _ _ _ _ _ _ _ _ (hd _) (.mk _ _) (.mk _ _) h
        | some g => exact .iug _ _ _ _ _ _ _ _ _ _ _ _ _ _ (hd _) (.mk _ _) (.mk _ _) (.mk _ _) h
  | true =>
    have hd := cycleHeader_of st n
    cases i with
    | none =>
      cases u with
      | none =>
        cases g with
        | none => exact .cyclePlain _ _ _ _ _ _ _ _ (hd _) h
        | some g => exact .cycleG _ _ _ _ _ _ _ _ _ _ (hd _) (.mk _ _) h
      | some u =>
        cases g with
        | none => exact .cycleU _ _ _ _ _ _ _ _ _ _ (hd _) (.mk _ _) h
        | some g => exact .cycleUg _ _ _ _ _ _ _ _ _ _ _ _ (hd _) (.mk _ _) (.mk _ _) h
    | some i =>
      cases u with
      | none =>
        cases g with
        | none => exact .cycleI _ _ _ _ _ _ _ _ _ _ (hd _) (.mk _ _) h
        | some g => exact .cycleIg _ _ _ _ _ _ _ _ _ _ _ _ (hd _) (.mk _ _) (.mk _ _) h
      | some u =>
        cases g with
        | none => exact .cycleIu _ _ _ _ _ _ _ _ _ _ _ _ (hd _) (.mk _ _) (.mk _ _) h
        | some g => rcases hg rfl with h | h | h <;> cases h

/-- The phases inside of a phase. -/
def inner : Spec.Syntax.Phase → List Phase
  | .mk _ _ _ _ _ _ as => as.phases

mutual
theorem action_reads (a : Spec.Syntax.Action) (ha : a.Ok) (s : St) (r : List T) :
    Parse.Action s (a.spell ++ r) a.name (plus s a.phases a.passes a.traversals) r := by
  cases a with
  | ref n => exact .id s n r
  | pass p =>
    have := Parse.Action.pass s _ _ r (pass_reads p ha r)
    have e : p.tree.name = p.name := by cases p <;> rfl
    rw [e] at this
    exact this
  | traversal t => exact .traversal s _ _ r (traversal_reads s.travIndex t ha r)
  | phase p =>
    have := Parse.Action.phase s _ _ _ r (phase_reads_spell p ha s r)
    obtain ⟨st, c, n, i, u, g, as⟩ := p
    rw [plus_phase] at this
    exact this
theorem phase_reads_spell (p : Spec.Syntax.Phase) (hp : p.Ok) (s : St) (r : List T) :
    PhaseP s (p.spell ++ r) p.tree (plus s (inner p) p.passes p.traversals) r := by
  obtain ⟨st, c, n, i, u, g, as⟩ := p
  have h := actions_read as hp.2 s (.rbrace :: .rbrace :: r)
  have := phase_of st c n i u g hp.1 (r := r) (ActionsBody.mk _ _ _ _ _ h)
  simpa only [Spec.Syntax.Phase.spell, Spec.Syntax.Phase.tree, inner, Spec.Syntax.Phase.passes, Spec.Syntax.Phase.traversals, List.append_assoc, List.cons_append, List.nil_append] using this
theorem actions_read (as : Spec.Syntax.Actions) (ha : as.Ok) (s : St) (r : List T) :
    Parse.Actions s (as.spell ++ r) as.names (plus s as.phases as.passes as.traversals) r := by
  cases as with
  | one a =>
    have := Parse.Actions.one s _ _ _ r (action_reads a ha s (.semi :: r))
    simpa only [Spec.Syntax.Actions.spell, Spec.Syntax.Actions.names, Spec.Syntax.Actions.phases, Spec.Syntax.Actions.passes,
      Spec.Syntax.Actions.traversals, List.append_assoc, List.cons_append, List.nil_append] using this
  | cons a as =>
    have h1 := action_reads a ha.1 s (.semi :: (as.spell ++ r))
    have h2 := actions_read as ha.2 (plus s a.phases a.passes a.traversals) r
    have := Parse.Actions.cons _ _ _ _ _ _ _ _ h1 h2
    rw [plus_plus] at this
    simpa only [Spec.Syntax.Actions.spell, Spec.Syntax.Actions.names, Spec.Syntax.Actions.phases, Spec.Syntax.Actions.passes,
      Spec.Syntax.Actions.traversals, List.append_assoc, List.cons_append, List.nil_append] using this
end

/-! ## Files -/

theorem phases_append (p : Spec.Syntax.Phase) :
    p.phases = inner p ++ [p.tree] := by
  obtain ⟨st, c, n, i, u, g, as⟩ := p
  simp only [Spec.Syntax.Phase.phases, inner]

/-- The state behind an entry. -/
def after (s : St) (e : Spec.Syntax.Entry) : St :=
  let s := plus s e.phases e.passes e.traversals
  { s with
    nodes := (e.nodes.mapIdx fun i n => n.tree (s.nodeIndex + i)).reverse ++ s.nodes
    nodeIndex := s.nodeIndex + e.nodes.length
    nodesets := (e.nodesets.map Spec.Syntax.NodeSet.tree).reverse ++ s.nodesets
    enums := (e.enums.map Spec.Syntax.Enum.tree).reverse ++ s.enums }

theorem entry_reads (e : Spec.Syntax.Entry) (he : e.Ok) (s : St) (r : List T) : Parse.Entry s (e.spell ++ r) (after s e) r := by
  cases e with
  | phase p =>
    have := Parse.Entry.phase s _ _ _ r (phase_reads_spell p he s r)
    rw [plus_phase, ← phases_append] at this
    exact this
  | pass p => exact .pass s _ _ r (pass_reads p he r)
  | traversal t => exact .traversal s _ _ r (traversal_reads s.travIndex t he r)
  | node n => exact .node s _ _ r (node_reads n he r)
  | nodeset n => exact .nodeset s _ _ r (nodeset_reads n he r)
  | enum n => exact .enum s _ _ r (enum_reads n he r)

theorem entries_read (es : List Spec.Syntax.Entry) (h : ∀ e ∈ es, e.Ok) (s : St) :
    Parse.Entries s (Spec.Syntax.spell es) (es.foldl after s) [] := by
  induction es generalizing s with
  | nil => exact .empty s []
  | cons e es ih =>
    have h1 := entry_reads e (h e (List.mem_cons_self ..)) s (.semi :: Spec.Syntax.spell es)
    have := Parse.Entries.cons _ _ _ _ _ _ h1 (ih (fun x hx => h x (List.mem_cons_of_mem _ hx)) (after s e))
    simpa only [Spec.Syntax.spell, List.foldl_cons, List.flatMap_cons, List.append_assoc, List.cons_append, List.nil_append] using this

theorem after_ast (es : List Spec.Syntax.Entry) (s : St) : es.foldl after s =
    { phases := (es.flatMap Spec.Syntax.Entry.phases).reverse ++ s.phases
      passes := ((es.flatMap Spec.Syntax.Entry.passes).map Spec.Syntax.Pass.tree).reverse ++ s.passes
      traversals := ((es.flatMap Spec.Syntax.Entry.traversals).mapIdx fun i t => t.tree (s.travIndex + i)).reverse ++ s.traversals
      nodes := ((es.flatMap Spec.Syntax.Entry.nodes).mapIdx fun i n => n.tree (s.nodeIndex + i)).reverse ++ s.nodes
      nodesets := ((es.flatMap Spec.Syntax.Entry.nodesets).map Spec.Syntax.NodeSet.tree).reverse ++ s.nodesets
      enums := ((es.flatMap Spec.Syntax.Entry.enums).map Spec.Syntax.Enum.tree).reverse ++ s.enums
      travIndex := s.travIndex + (es.flatMap Spec.Syntax.Entry.traversals).length
      nodeIndex := s.nodeIndex + (es.flatMap Spec.Syntax.Entry.nodes).length } := by
  induction es generalizing s with
  | nil => rfl
  | cons e es ih =>
    rw [List.foldl_cons, ih]
    simp only [after, plus, List.flatMap_cons, List.reverse_append, List.append_assoc, List.map_append, List.mapIdx_append,
      List.length_append, Nat.add_comm, Nat.add_left_comm]

theorem file_reads (es : List Spec.Syntax.Entry) (h : ∀ e ∈ es, e.Ok) :
    ∃ s, Parse.Entries start (Spec.Syntax.spell es) s [] ∧ s.ast = Spec.Syntax.tree es := by
  refine ⟨_, entries_read es h start, ?_⟩
  rw [after_ast]
  simp only [start, St.ast, Spec.Syntax.tree, List.append_nil, Nat.zero_add]

end Verif.Lemmas.Syntax
