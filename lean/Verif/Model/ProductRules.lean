import Verif.Model.Propagate

/-!
# Model of the check of equations (`cocogen/frontend/check_product_rules.c`)

* Names are numbers that stand for their lower-case form, which is what is compared.
* A pointer to a child or to an attribute is the child or the attribute: the lists are not changed by the pass.
* Nodes and nodesets are numbered; the symbol table is a function from names.
* Hash tables are the finite maps they implement (C01–C03).  `CPRfini` is not modelled.
* Reported errors are counted.
-/

namespace Verif.ProductRules
open Verif.Propagate (Attr Target)

/-- A child (`cocogen/main.ccn:761-774`): its name and the name of its type. -/
structure Child where
  name : Nat
  type : Nat
  deriving DecidableEq, Repr

/-- An attribute reference (`cocogen/main.ccn:878-889`): `none` is `this`. -/
structure ARef where
  inode : Option Nat
  iattr : Nat
  deriving DecidableEq, Repr

/-- An equation with its arguments (`cocogen/main.ccn:863-876`). -/
structure Eqn where
  rule : ARef
  args : List ARef
  deriving DecidableEq, Repr

/-- A node declaration (`cocogen/main.ccn:679-695`). -/
structure NodeD where
  children : List Child
  attrs : List Attr
  eqns : List Eqn
  deriving Repr

/-- What a symbol table entry is (`cocogen/frontend/check_product_rules.c:160-172`). -/
inductive Sym where
  | node (i : Nat)
  | set (i : Nat)
  | other
  deriving DecidableEq, Repr

/-- The declarations and the symbol table (`cocogen/frontend/check_product_rules.c:226-230`). -/
structure Env where
  nodes : List NodeD
  sets : List (List Attr)
  lookup : Nat → Option Sym

/-- What is stored in a reference: the child and the attribute, and for `this` no child
(`cocogen/frontend/check_product_rules.c:157-158`, `184`). -/
structure Resolution where
  child : Option Child
  attr : Option Attr
  deriving DecidableEq, Repr

/-- The tables `found_children` and `found_attributes`, the resolutions in the order in which they are made, and the number
of errors (`cocogen/frontend/check_product_rules.c:24-28`). -/
structure CState where
  children : Nat → Nat → Option Child
  attrs : Target → Nat → Option Attr
  log : List Resolution
  errors : Nat

/-- `HTinsert_nested` (`cocogen/frontend/check_product_rules.c:63-74`): a key that is there is not replaced. -/
def insert_nested {κ α : Type} [DecidableEq κ] (t : κ → Nat → Option α) (n : κ) (key : Nat) (v : α) : κ → Nat → Option α :=
  match t n key with
  | some _ => t
  | none => fun m k => if m = n then (if k = key then some v else t m k) else t m k

/-- The loop in `find_child` (`cocogen/frontend/check_product_rules.c:84-91`). -/
def childLoop (key : Nat) : List Child → Option Child
  | [] => none
  | c :: rest =>
    match decide (c.name = key) with
    | true => some c
    | false => childLoop key rest

/-- `find_child` (`cocogen/frontend/check_product_rules.c:76-94`); `HTfind_nested` is at lines 50-57. -/
def find_child (curr : Nat) (nd : NodeD) (key : Nat) (s : CState) : Option Child × CState :=
  match s.children curr key with
  | some c => (some c, s)
  | none =>
    match childLoop key nd.children with
    | some c => (some c, { s with children := insert_nested s.children curr key c })
    | none => (none, s)

/-- The loop in `find_attribute` (`cocogen/frontend/check_product_rules.c:104-110`). -/
def attrLoop (key : Nat) : List Attr → Option Attr
  | [] => none
  | a :: rest =>
    match decide (a.name = key) with
    | true => some a
    | false => attrLoop key rest

/-- `find_attribute` (`cocogen/frontend/check_product_rules.c:96-113`). -/
def find_attribute (t : Target) (l : List Attr) (key : Nat) (s : CState) : Option Attr × CState :=
  match s.attrs t key with
  | some a => (some a, s)
  | none =>
    match attrLoop key l with
    | some a => (some a, { s with attrs := insert_nested s.attrs t key a })
    | none => (none, s)

/-- The comparison of nodes in `find_product_rule` (`cocogen/frontend/check_product_rules.c:124-126`). -/
def sameNode : Option Nat → Option Nat → Bool
  | none, none => true
  | some a, some b => decide (a = b)
  | _, _ => false

/-- `find_product_rule` (`cocogen/frontend/check_product_rules.c:115-136`): whether there is one. -/
def find_product_rule (node : Option Nat) (name : Nat) : List Eqn → Bool
  | [] => false
  | e :: rest =>
    match sameNode node e.rule.inode && decide (e.rule.iattr = name) with
    | true => true
    | false => find_product_rule node name rest

/-- The attributes of an entry of the symbol table (`cocogen/frontend/check_product_rules.c:164-174`, `283-289`). -/
def attributesOf (env : Env) : Sym → Res (Target × List Attr)
  | .node i =>
    match env.nodes[i]? with
    | some nd => .ok (.node i, nd.attrs)
    | none => .ub "no such node"
  | .set i =>
    match env.sets[i]? with
    | some l => .ok (.set i, l)
    | none => .ub "no such nodeset"
  | .other => .abort "assert NT_INODESET"

/-- The attributes of the type with the given name (`cocogen/frontend/check_product_rules.c:159-174`, `280-289`). -/
def attributesOfType (env : Env) (type : Nat) : Res (Target × List Attr) :=
  match env.lookup type with
  | none => .abort "assert ref_node != NULL"
  | some sym => attributesOf env sym

/-- The errors about the target of an equation (`cocogen/frontend/check_product_rules.c:186-204`). -/
def ruleErrors (inRule : Bool) (r : ARef) (a : Attr) : Nat :=
  match inRule with
  | false => 0
  | true =>
    match r.inode with
    | none =>
      match a.syn with
      | true => 0
      | false => 1
    | some _ =>
      match a.inh with
      | true => 0
      | false => 1

/-- The second half of `check_attribute_reference` (`cocogen/frontend/check_product_rules.c:164-204`). -/
def checkAttr (r : ARef) (inRule : Bool) (child : Option Child) (tl : Target × List Attr) (s : CState) : CState :=
  match find_attribute tl.1 tl.2 r.iattr s with
  | (none, s) => { s with errors := s.errors + 1, log := s.log ++ [⟨child, none⟩] }
  | (some a, s) => { s with errors := s.errors + ruleErrors inRule r a, log := s.log ++ [⟨child, some a⟩] }

/-- `check_attribute_reference` (`cocogen/frontend/check_product_rules.c:138-205`). -/
def check_attribute_reference (env : Env) (curr : Nat) (nd : NodeD) (r : ARef) (inRule : Bool) (s : CState) : Res CState :=
  match r.inode with
  | none => .ok (checkAttr r inRule none (.node curr, nd.attrs) s)
  | some name =>
    match find_child curr nd name s with
    | (none, s) => .ok { s with errors := s.errors + 1, log := s.log ++ [⟨none, none⟩] }
    | (some c, s) => do
      let tl ← attributesOfType env c.type
      .ok (checkAttr r inRule (some c) tl s)

/-- `check_product_rule` (`cocogen/frontend/check_product_rules.c:207-221`). -/
def check_product_rule (eqns : List Eqn) (node : Option Nat) (name : Nat) (s : CState) : CState :=
  match find_product_rule node name eqns with
  | true => s
  | false => { s with errors := s.errors + 1 }

/-- `CPRequation_dependency` (`cocogen/frontend/check_product_rules.c:257-261`). -/
def CPRequation_dependency (env : Env) (curr : Nat) (nd : NodeD) : List ARef → CState → Res CState
  | [], s => .ok s
  | r :: rest, s => do
    let s ← check_attribute_reference env curr nd r false s
    CPRequation_dependency env curr nd rest s

/-- `CPRequation` (`cocogen/frontend/check_product_rules.c:247-252`). -/
def CPRequation (env : Env) (curr : Nat) (nd : NodeD) : List Eqn → CState → Res CState
  | [], s => .ok s
  | e :: rest, s => do
    let s ← check_attribute_reference env curr nd e.rule true s
    let s ← CPRequation_dependency env curr nd e.args s
    CPRequation env curr nd rest s

/-- `CPRattribute` (`cocogen/frontend/check_product_rules.c:266-274`). -/
def CPRattribute (nd : NodeD) : List Attr → CState → CState
  | [], s => s
  | a :: rest, s =>
    match a.syn with
    | true => CPRattribute nd rest (check_product_rule nd.eqns none a.name s)
    | false => CPRattribute nd rest s

/-- The loop in `CPRchild` (`cocogen/frontend/check_product_rules.c:291-297`). -/
def inheritedLoop (nd : NodeD) (name : Nat) : List Attr → CState → CState
  | [], s => s
  | a :: rest, s =>
    match a.inh with
    | true => inheritedLoop nd name rest (check_product_rule nd.eqns (some name) a.name s)
    | false => inheritedLoop nd name rest s

/-- `CPRchild` (`cocogen/frontend/check_product_rules.c:279-301`). -/
def CPRchild (env : Env) (nd : NodeD) : List Child → CState → Res CState
  | [], s => .ok s
  | c :: rest, s => do
    let tl ← attributesOfType env c.type
    CPRchild env nd rest (inheritedLoop nd c.name tl.2 s)

/-- `CPRinode` (`cocogen/frontend/check_product_rules.c:235-242`): the nodes from the number `i` on. -/
def CPRinode (env : Env) : Nat → List NodeD → CState → Res CState
  | _, [], s => .ok s
  | i, nd :: rest, s => do
    let s ← CPRequation env i nd nd.eqns s
    let s ← CPRchild env nd nd.children s
    CPRinode env (i + 1) rest (CPRattribute nd nd.attrs s)

/-- `CPRast` with `CPRinit` (`cocogen/frontend/check_product_rules.c:24-28`, `226-230`). -/
def CPRast (env : Env) : Res CState :=
  CPRinode env 0 env.nodes { children := fun _ _ => none, attrs := fun _ _ => none, log := [], errors := 0 }

end Verif.ProductRules
