import Verif.Model.HashTable
import Verif.Model.Ids

/-!
# Model of the generation of calls and declarations of evaluation functions

`cocogen/dynamic_backend/collect_children.c`, `cocogen/dynamic_backend/gen_visit_source.c`,
`cocogen/dynamic_backend/gen_equation_functions.c` and `cocogen/dynamic_backend/gen_user_equations.c`.

The generated C text is kept as the tree a C compiler reads from it: names, types, expressions and conditions are the
texts that are printed, the punctuation around them is the structure.  White space is left out.  The text `print_type`
writes is an input (the field `type` of a reference).
-/

namespace Verif.EvalGen
open Verif.Str Verif.Ids Verif.HT

/-- A `child` node (`cocogen/main.ccn:761-774`): its address, its name and the flag `is_mandatory`. -/
structure Child where
  addr : UInt64
  name : Id
  mandatory : Bool
  deriving DecidableEq, Repr

/-- An `attribute_reference` node (`cocogen/main.ccn:878-889`).  Of the attribute it refers to, the text of its type and
the flag `is_synthesized` are kept. -/
structure ARef where
  inode : Option Id
  iattr : Id
  nodeType : Id
  type : CStr
  syn : Bool
  deriving DecidableEq, Repr

/-- An `equation` node with its list of `equation_dependency` (`cocogen/main.ccn:863-876`). -/
structure Equation where
  rule : ARef
  args : List ARef
  deriving DecidableEq, Repr

/-- An `inode` (`cocogen/main.ccn:679-695`) as far as it is read here. -/
structure Node where
  name : Id
  children : List Child
  equations : List Equation
  deriving DecidableEq, Repr

/-- `CH_FALSE` and `CH_TRUE`; `CH_NULL` is the NULL value of a hash table
(`cocogen/dynamic_backend/collect_children.h:7`). -/
inductive Mark where
  | cfalse | ctrue
  deriving DecidableEq, Repr

/-- The table `children_null`, keyed by the addresses of children
(`cocogen/dynamic_backend/gen_visit_source.c:270`). -/
abbrev Tab := Table UInt64 Mark

/-- `htable_size` (`cocogen/dynamic_backend/gen_visit_source.c:26`,
`cocogen/dynamic_backend/gen_equation_functions.c:22`). -/
def htable_size : Nat := 100

/-- `get_child` (`cocogen/dynamic_backend/collect_children.c:14-23`,
`cocogen/dynamic_backend/gen_visit_source.c:206-215`, `cocogen/dynamic_backend/gen_equation_functions.c:87-96`). -/
def get_child (name : Id) : List Child → Option Child
  | [] => none
  | c :: rest =>
    match STReq (some c.name.lwr) (some name.lwr) with
    | true => some c
    | false => get_child name rest

/-- `get_node_name_this` (`cocogen/dynamic_backend/gen_visit_source.c:65-72`,
`cocogen/dynamic_backend/gen_equation_functions.c:27-34`). -/
def get_node_name_this (a : ARef) : CStr :=
  match a.inode with
  | some i => i.lwr
  | none => [116, 104, 105, 115]

/-- The loop of `collect_children_equation_args` (`cocogen/dynamic_backend/collect_children.c:30-53`); the list of
children is built by appending to its tail. -/
def collectLoop (children : List Child) : List ARef → Tab → List Child → Res (Tab × List Child)
  | [], t, l => .ok (t, l)
  | a :: rest, t, l =>
    match a.inode with
    | none => collectLoop children rest t l
    | some i =>
      match get_child i children with
      | none => .abort "assert(child != NULL)"
      | some c =>
        match c.mandatory with
        | true => collectLoop children rest t l
        | false => do
          let v ← HTlookup t c.addr
          match v with
          | some _ => collectLoop children rest t l
          | none => do
            let t ← HTinsert t c.addr (some .cfalse)
            collectLoop children rest t (l ++ [c])

/-- `collect_children_equation_args` (`cocogen/dynamic_backend/collect_children.c:25-56`). -/
def collect_children_equation_args (t : Tab) (n : Node) (e : Equation) : Res (Tab × List Child) :=
  collectLoop n.children e.args t []

/-- `((size_t)1UL) << HTelementCount(children_null)` (`cocogen/dynamic_backend/gen_visit_source.c:308`,
`cocogen/dynamic_backend/gen_equation_functions.c:146`): shifting by the word size or more is undefined.  The values
below it fit a `size_t`, so the loop counter is a natural number. -/
def combinations (t : Tab) : Res Nat :=
  match decide ((HTelementCount t).toNat < 64) with
  | true => .ok (2 ^ (HTelementCount t).toNat)
  | false => .ub "shift by the word size or more"

/-- The mark for a bit of the mask (`cocogen/dynamic_backend/gen_visit_source.c:314-318`,
`cocogen/dynamic_backend/gen_equation_functions.c:152-156`). -/
def markOf (onSet onClear : Mark) : Bool → Mark
  | true => onSet
  | false => onClear

/-- The loop that writes the bits of the mask into the table: `onSet` for a bit that is set, `onClear` for the others
(`cocogen/dynamic_backend/gen_visit_source.c:311-320`, `cocogen/dynamic_backend/gen_equation_functions.c:149-158`). -/
def setMask (onSet onClear : Mark) (bitmask : Nat) (t : Tab) : Res Tab := do
  let r ← forEach t 0 (fun (t, i) it => do
    let t ← HTiterSetValue t it (some (markOf onSet onClear (bitmask.testBit i)))
    .ok (t, i + 1))
  .ok r.1

/-- `EVAL%s_%s_%s` (`cocogen/dynamic_backend/gen_visit_source.c:349-351`,
`cocogen/dynamic_backend/gen_equation_functions.c:162-164`). -/
def evalName (n : Node) (a : ARef) : CStr :=
  [69, 86, 65, 76] ++ n.name.lwr ++ [95] ++ get_node_name_this a ++ [95] ++ a.iattr.lwr

/-- The loop that appends `_%s_NULL` for the children that are marked as missing
(`cocogen/dynamic_backend/gen_visit_source.c:352-358`, `cocogen/dynamic_backend/gen_equation_functions.c:165-170`). -/
def nullSuffix (t : Tab) : List Child → Res CStr
  | [] => .ok []
  | c :: rest => do
    let v ← HTlookup t c.addr
    let s ← nullSuffix t rest
    match v with
    | some .cfalse => .ok ([95] ++ c.name.lwr ++ [95, 78, 85, 76, 76] ++ s)
    | _ => .ok s

/-- Whether an argument is skipped: its child is marked as missing
(`cocogen/dynamic_backend/gen_visit_source.c:224-231`, `cocogen/dynamic_backend/gen_equation_functions.c:114-121`). -/
def skipped (n : Node) (t : Tab) (a : ARef) : Res Bool :=
  match a.inode with
  | none => .ok false
  | some i =>
    match get_child i n.children with
    | none => .abort "assert(child != NULL)"
    | some c => do
      let v ← HTlookup t c.addr
      match v with
      | some .cfalse => .ok true
      | _ => .ok false

/-- The text of one argument of a call (`cocogen/dynamic_backend/gen_visit_source.c:242-254`). -/
def argText (n : Node) (a : ARef) : CStr :=
  match a.inode with
  | some i => a.nodeType.upr ++ [95] ++ a.iattr.upr ++ [40] ++ n.name.upr ++ [95] ++ i.upr ++ [40, 110, 111, 100, 101, 41, 41]
  | none => n.name.upr ++ [95] ++ a.iattr.upr ++ [40, 110, 111, 100, 101, 41]

/-- `print_equation_args` of a call (`cocogen/dynamic_backend/gen_visit_source.c:217-260`): the arguments, which are
separated by commas. -/
def callArgs (n : Node) (t : Tab) : List ARef → Res (List CStr)
  | [] => .ok []
  | a :: rest => do
    let b ← skipped n t a
    let l ← callArgs n t rest
    match b with
    | true => .ok l
    | false => .ok (argText n a :: l)

/-- A generated call: name of the function and arguments (`cocogen/dynamic_backend/gen_visit_source.c:346-361`). -/
structure Call where
  fn : CStr
  args : List CStr
  deriving DecidableEq, Repr

/-- One part of the chain: the expressions compared with NULL, none for the last part, and the call
(`cocogen/dynamic_backend/gen_visit_source.c:322-367`). -/
structure Branch where
  guard : Option (List CStr)
  call : Call
  deriving DecidableEq, Repr

/-- What is generated for the evaluation of an attribute: the type and name of the variable, the chain, and the variable
that is stored in the current node, if it is (`cocogen/dynamic_backend/gen_visit_source.c:284-381`). -/
structure Out where
  type : CStr
  var : CStr
  chain : List Branch
  store : Option CStr
  deriving DecidableEq, Repr

/-- A pointer in the table is dereferenced: it is a child of the node
(`cocogen/dynamic_backend/gen_visit_source.c:327`, `336`). -/
def childAt (n : Node) (p : UInt64) : Res Child :=
  match n.children.find? (fun c => c.addr == p) with
  | some c => .ok c
  | none => .ub "not a child"

/-- The expression of a child, `%s_%s(node)` (`cocogen/dynamic_backend/gen_visit_source.c:334-336`). -/
def childText (n : Node) (c : Child) : CStr := n.name.upr ++ [95] ++ c.name.upr ++ [40, 110, 111, 100, 101, 41]

/-- The condition of a part of the chain (`cocogen/dynamic_backend/gen_visit_source.c:322-342`). -/
def guardOf (n : Node) (t : Tab) : Res (List CStr) := do
  let r ← forEach t ([] : List CStr) (fun (t, acc) it => do
    let k ← HTiterKey t it
    let v ← HTiterValue t it
    match v with
    | some .cfalse => do
      let c ← childAt n k
      .ok (t, acc ++ [childText n c])
    | _ => .ok (t, acc))
  .ok r.2

/-- One part of the chain (`cocogen/dynamic_backend/gen_visit_source.c:310-367`); `last` is
`bitmask == combinations - 1`. -/
def branchOf (n : Node) (a : ARef) (e : Equation) (children : List Child) (t : Tab) (last : Bool) : Res Branch := do
  let s ← nullSuffix t children
  let args ← callArgs n t e.args
  match last with
  | true => .ok ⟨none, ⟨evalName n a ++ s, args⟩⟩
  | false => do
    let g ← guardOf n t
    .ok ⟨some g, ⟨evalName n a ++ s, args⟩⟩

/-- The loop over the masks, of which `todo` are left (`cocogen/dynamic_backend/gen_visit_source.c:309-368`). -/
def chainLoop (n : Node) (a : ARef) (e : Equation) (children : List Child) (combos : Nat) :
    Nat → Tab → Res (List Branch)
  | 0, _ => .ok []
  | todo + 1, t => do
    let t ← setMask .ctrue .cfalse (combos - (todo + 1)) t
    let b ← branchOf n a e children t (todo == 0)
    let rest ← chainLoop n a e children combos todo t
    .ok (b :: rest)

/-- `get_equation` (`cocogen/dynamic_backend/gen_visit_source.c:190-204`). -/
def get_equation (a : ARef) : List Equation → Option Equation
  | [] => none
  | e :: rest =>
    match STReq (some (get_node_name_this a)) (some (get_node_name_this e.rule)) &&
        STReq (some a.iattr.lwr) (some e.rule.iattr.lwr) with
    | true => some e
    | false => get_equation a rest

/-- The variable that receives the value, `%s_%s` (`cocogen/dynamic_backend/gen_visit_source.c:302-303`, `376-377`). -/
def varText (a : ARef) : CStr := get_node_name_this a ++ [95] ++ a.iattr.lwr

/-- The storing of the value (`cocogen/dynamic_backend/gen_visit_source.c:371-381`). -/
def storeOf (a : ARef) : Res (Option CStr) :=
  match a.inode with
  | some _ => .ok none
  | none =>
    match a.syn with
    | true => .ok (some (varText a))
    | false => .abort "assert(ATTRIBUTE_IS_SYNTHESIZED)"

/-- The chain for an equation (`cocogen/dynamic_backend/gen_visit_source.c:284-369`). -/
def chainOf (n : Node) (a : ARef) (e : Equation) : Res (List Branch) := do
  let (t, children) ← collect_children_equation_args (HTnew_Ptr htable_size) n e
  match HTelementCount t == 0 with
  | true => do
    let args ← callArgs n t e.args
    .ok [⟨none, ⟨evalName n a, args⟩⟩]
  | false => do
    let combos ← combinations t
    chainLoop n a e children combos combos t

/-- `DGVSvisit_sequence_eval` (`cocogen/dynamic_backend/gen_visit_source.c:265-388`); `none` if an error was reported. -/
def DGVSvisit_sequence_eval (n : Node) (a : ARef) : Res (Option Out) :=
  match get_equation a n.equations with
  | none => .ok none
  | some e => do
    let chain ← chainOf n a e
    let store ← storeOf a
    .ok (some ⟨a.type, varText a, chain, store⟩)

/-- A declaration or definition: type, name and parameters; `none` stands for the parameter list `void`
(`cocogen/dynamic_backend/gen_equation_functions.c:160-173`, `cocogen/dynamic_backend/gen_user_equations.c:174-186`). -/
structure Proto where
  type : CStr
  fn : CStr
  params : Option (List (CStr × CStr))
  deriving DecidableEq, Repr

/-- The loop of `print_equation_args` of a declaration: types and names
(`cocogen/dynamic_backend/gen_equation_functions.c:109-132`, `cocogen/dynamic_backend/gen_user_equations.c:109-132`). -/
def declParams (n : Node) (t : Tab) : List ARef → Res (List (CStr × CStr))
  | [] => .ok []
  | a :: rest => do
    let b ← skipped n t a
    let l ← declParams n t rest
    match b with
    | true => .ok l
    | false => .ok ((a.type, varText a) :: l)

/-- One declaration (`cocogen/dynamic_backend/gen_equation_functions.c:98-107`, `160-173`): without any argument the
parameter list is `void`. -/
def declOf (n : Node) (e : Equation) (children : List Child) (t : Tab) : Res Proto := do
  let s ← nullSuffix t children
  match e.args with
  | [] => .ok ⟨e.rule.type, evalName n e.rule ++ s, none⟩
  | _ :: _ => do
    let ps ← declParams n t e.args
    .ok ⟨e.rule.type, evalName n e.rule ++ s, some ps⟩

/-- One function of the file for the user (`cocogen/dynamic_backend/gen_user_equations.c:106-133`, `174-186`): the
parameter list can be empty. -/
def defnOf (n : Node) (e : Equation) (children : List Child) (t : Tab) : Res Proto := do
  let s ← nullSuffix t children
  let ps ← declParams n t e.args
  .ok ⟨e.rule.type, evalName n e.rule ++ s, some ps⟩

/-- The loop over the masks, of which `todo` are left (`cocogen/dynamic_backend/gen_equation_functions.c:147-174`,
`cocogen/dynamic_backend/gen_user_equations.c:148-193`). -/
def declLoop (one : Tab → Res Proto) (combos : Nat) : Nat → Tab → Res (List Proto)
  | 0, _ => .ok []
  | todo + 1, t => do
    let t ← setMask .cfalse .ctrue (combos - (todo + 1)) t
    let d ← one t
    let rest ← declLoop one combos todo t
    .ok (d :: rest)

/-- `DGEFequation` for one equation (`cocogen/dynamic_backend/gen_equation_functions.c:138-181`). -/
def DGEFequation (n : Node) (e : Equation) : Res (List Proto) := do
  let (t, children) ← collect_children_equation_args (HTnew_Ptr htable_size) n e
  let combos ← combinations t
  declLoop (declOf n e children) combos combos t

/-- `DUGEequation` for one equation (`cocogen/dynamic_backend/gen_user_equations.c:138-200`). -/
def DUGEequation (n : Node) (e : Equation) : Res (List Proto) := do
  let (t, children) ← collect_children_equation_args (HTnew_Ptr htable_size) n e
  let combos ← combinations t
  declLoop (defnOf n e children) combos combos t

/-- The declarations of all equations of a node (`cocogen/dynamic_backend/gen_equation_functions.c:66-85`, `179`); `one`
is the generation for one equation. -/
def allEquations (one : Equation → Res (List Proto)) : List Equation → Res (List Proto)
  | [] => .ok []
  | e :: rest => do
    let l ← one e
    let r ← allEquations one rest
    .ok (l ++ r)

end Verif.EvalGen
