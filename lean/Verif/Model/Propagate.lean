import Verif.Model.Parse

/-!
# Model of the propagation of attributes (`cocogen/frontend/nodesets/propagate_attributes.c`)

* Nodes and nodesets are numbered.  A name is a number that stands for its lower-case form (`ID_LWR`), which is what is
  compared; the reference of a type is a number that stands for `ID_ORIG`.
* The pass runs after the set expressions have been unwrapped: the expression of a nodeset is the tree of its members,
  which is here the list of them in the order in which they are visited.
* Reported errors are counted.
-/

namespace Verif.Propagate

/-- `enum attribute_type` (`cocogen/main.ccn:786-791`): the three types that have a reference, and the others. -/
inductive AType where
  | link | linkOrEnum | user
  | basic (k : Nat)
  deriving DecidableEq, Repr

/-- An attribute (`cocogen/main.ccn:846-861`).  `lifetimes` are as the parser leaves them; a copy has them
too.  `orig` stands for `ID_ORIG` of the name, which the pass does not read. -/
structure Attr where
  name : Nat
  type : AType
  ref : Nat
  ctor : Bool
  inh : Bool
  syn : Bool
  propagated : Bool
  lifetimes : List Parse.Lifetime
  orig : Nat := 0
  deriving DecidableEq, Repr

/-- What a literal of a set expression is looked up to (`cocogen/frontend/nodesets/propagate_attributes.c:202-204`). -/
inductive Entry where
  | null
  | other
  | node (i : Nat)
  deriving DecidableEq, Repr

/-- What the pass reads: the number of nodesets, the child table and the members of each nodeset, and the names of the
children of a node (`cocogen/frontend/nodesets/propagate_attributes.c:114-117`, `181-208`). -/
structure Env where
  sets : Nat
  table : Nat → List Nat
  members : Nat → List Entry
  kids : Nat → List Nat

/-- A node or a nodeset (`cocogen/frontend/nodesets/propagate_attributes.c:133-138`). -/
inductive Target where
  | node (i : Nat)
  | set (i : Nat)
  deriving DecidableEq, Repr

/-- `NODE_TYPE(node) == NT_INODE` (`cocogen/frontend/nodesets/propagate_attributes.c:83`). -/
def Target.isNode : Target → Bool
  | .node _ => true
  | .set _ => false

/-- The attribute lists and the number of errors (`cocogen/frontend/nodesets/propagate_attributes.c:132-154`). -/
structure PState where
  attrs : Target → List Attr
  errors : Nat

/-- `compare_attribute_types` (`cocogen/frontend/nodesets/propagate_attributes.c:24-36`); an attribute of one of the three
types has a reference. -/
def compare_attribute_types (a b : Attr) : Bool :=
  match decide (a.type = b.type) with
  | false => false
  | true =>
    match a.type with
    | .link => decide (a.ref = b.ref)
    | .linkOrEnum => decide (a.ref = b.ref)
    | .user => decide (a.ref = b.ref)
    | .basic _ => true

/-- `check_classic_exception` (`cocogen/frontend/nodesets/propagate_attributes.c:40-74`): the result and the number of
errors.  The messages read the name of the node as that of a nodeset, which is at the same place in both structures. -/
def check_classic_exception (parent child : Attr) : Bool × Nat :=
  match parent.inh || parent.syn with
  | true => (false, 0)
  | false =>
    match child.ctor with
    | false => (true, 1)
    | true =>
      match child.inh || child.syn || !compare_attribute_types parent child with
      | true => (true, 1)
      | false => (true, 0)

/-- `check_existing_attributes` (`cocogen/frontend/nodesets/propagate_attributes.c:76-111`). -/
def check_existing_attributes (isNode : Bool) (new : Attr) : List Attr → Bool → Nat → Bool × Nat
  | [], ex, errors => (ex, errors)
  | a :: rest, ex, errors =>
    match decide (a.name = new.name) with
    | false => check_existing_attributes isNode new rest ex errors
    | true =>
      match isNode with
      | false => check_existing_attributes isNode new rest ex (errors + 1)
      | true =>
        match check_classic_exception new a with
        | (true, n) => check_existing_attributes isNode new rest true (errors + n)
        | (false, n) => check_existing_attributes isNode new rest ex (errors + n + 1)

/-- `check_existing_child` (`cocogen/frontend/nodesets/propagate_attributes.c:113-129`): the number of errors. -/
def check_existing_child (new : Attr) : List Nat → Nat
  | [] => 0
  | k :: rest =>
    match decide (k = new.name) with
    | true => check_existing_child new rest + 1
    | false => check_existing_child new rest

/-- The errors of `check_existing_child`, which is called for nodes only
(`cocogen/frontend/nodesets/propagate_attributes.c:146-148`). -/
def childErrors (env : Env) (t : Target) (a : Attr) : Nat :=
  match t with
  | .node i => check_existing_child a (env.kids i)
  | .set _ => 0

/-- `propagate_attribute` (`cocogen/frontend/nodesets/propagate_attributes.c:131-155`).  `CCNcopy` also copies the rest of
the list, which is then dropped. -/
def propagate_attribute (env : Env) (t : Target) (a : Attr) (s : PState) : PState :=
  match check_existing_attributes t.isNode a (s.attrs t) false 0 with
  | (true, n) => { s with errors := s.errors + n }
  | (false, n) =>
    { attrs := fun u => if u = t then { a with propagated := true } :: s.attrs t else s.attrs u
      errors := s.errors + n + childErrors env t a }

/-- `propagate_attributes` (`cocogen/frontend/nodesets/propagate_attributes.c:157-167`): the loop over the attributes of
the current nodeset.  New attributes are put before the first one, so the loop does not see them. -/
def propagate_attributes (env : Env) (t : Target) : List Attr → PState → PState
  | [], s => s
  | a :: rest, s =>
    match a.propagated with
    | true => propagate_attributes env t rest s
    | false => propagate_attributes env t rest (propagate_attribute env t a s)

/-- `PRAnodeset_child_entry` (`cocogen/frontend/nodesets/propagate_attributes.c:192-196`). -/
def PRAnodeset_child_entry (env : Env) (curr : Nat) : List Nat → PState → PState
  | [], s => s
  | j :: rest, s => PRAnodeset_child_entry env curr rest (propagate_attributes env (.set j) (s.attrs (.set curr)) s)

/-- `PRAsetliteral` (`cocogen/frontend/nodesets/propagate_attributes.c:201-208`). -/
def PRAsetliteral (env : Env) (curr : Nat) : List Entry → PState → Res PState
  | [], s => .ok s
  | .null :: _, _ => .ub "NODE_TYPE(NULL)"
  | .other :: _, _ => .abort "assert NODE_TYPE(entry) == NT_INODE"
  | .node i :: rest, s => PRAsetliteral env curr rest (propagate_attributes env (.node i) (s.attrs (.set curr)) s)

/-- `PRAinodeset` (`cocogen/frontend/nodesets/propagate_attributes.c:181-187`): the nodesets in order. -/
def PRAinodeset (env : Env) : List Nat → PState → Res PState
  | [], s => .ok s
  | i :: rest, s => do
    let s ← PRAsetliteral env i (env.members i) (PRAnodeset_child_entry env i (env.table i) s)
    PRAinodeset env rest s

/-- `PRAast` (`cocogen/frontend/nodesets/propagate_attributes.c:172-176`). -/
def PRAast (env : Env) (attrs : Target → List Attr) : Res PState :=
  PRAinodeset env (List.range env.sets) { attrs := attrs, errors := 0 }

end Verif.Propagate
