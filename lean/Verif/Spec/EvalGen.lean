import Verif.Model.EvalGen

/-!
# Specification: which evaluation function belongs to which missing children

Only the data types of specifications and of generated code are shared with the model.
-/

namespace Verif.Spec.EvalGen
open Verif.Str Verif.Ids Verif.EvalGen

/-- The meaning of a chain of `if … else` in C: the first part whose comparisons with NULL all hold.  A condition without
any comparison is no C. -/
def chosen (isNull : CStr → Bool) : List Branch → Option Call
  | [] => none
  | b :: rest =>
    match b.guard with
    | none => some b.call
    | some [] => none
    | some (g :: gs) => if (g :: gs).all isNull then some b.call else chosen isNull rest

/-- The child an attribute reference speaks of. -/
def childOf (n : Node) (a : ARef) : Option Child :=
  a.inode.bind fun i => n.children.find? fun c => c.name.lwr == i.lwr

/-- Every reference to a child names a child of the node. -/
def Resolved (n : Node) (e : Equation) : Prop :=
  ∀ a ∈ e.args, ∀ i, a.inode = some i → ∃ c ∈ n.children, c.name.lwr = i.lwr

/-- Different children are different objects. -/
def Distinct (n : Node) : Prop := n.children.Pairwise fun c d => c.addr ≠ d.addr

/-- The first occurrences in a list. -/
def firsts : List Child → List Child
  | [] => []
  | c :: rest => c :: (firsts rest).filter fun d => d ≠ c

/-- The optional children an equation depends on, in the order in which they are first mentioned. -/
def optionals (n : Node) (e : Equation) : List Child :=
  firsts ((e.args.filterMap (childOf n)).filter fun c => !c.mandatory)

/-- How generated code reaches a child of the node at hand. -/
def access (n : Node) (c : Child) : CStr := n.name.upr ++ [95] ++ c.name.upr ++ [40, 110, 111, 100, 101, 41]

/-- The name of a node in an attribute reference: `this` or the child. -/
def owner (a : ARef) : CStr := (a.inode.map Id.lwr).getD [116, 104, 105, 115]

/-- The name of the evaluation function of an attribute for a list of missing children. -/
def fnName (n : Node) (a : ARef) (missing : List Child) : CStr :=
  [69, 86, 65, 76] ++ n.name.lwr ++ [95] ++ owner a ++ [95] ++ a.iattr.lwr ++
    missing.flatMap fun c => [95] ++ c.name.lwr ++ [95, 78, 85, 76, 76]

/-- The value an argument stands for, in generated code. -/
def argExpr (n : Node) (a : ARef) : CStr :=
  match a.inode with
  | some i => a.nodeType.upr ++ [95] ++ a.iattr.upr ++ [40] ++ n.name.upr ++ [95] ++ i.upr ++ [40, 110, 111, 100, 101, 41, 41]
  | none => n.name.upr ++ [95] ++ a.iattr.upr ++ [40, 110, 111, 100, 101, 41]

/-- An argument is passed unless it belongs to a missing optional child. -/
def passed (n : Node) (missing : Child → Bool) (a : ARef) : Bool :=
  match childOf n a with
  | none => true
  | some c => c.mandatory || !missing c

/-- The call that belongs to a pattern of missing children. -/
def wantedCall (n : Node) (a : ARef) (e : Equation) (missing : Child → Bool) : Call :=
  ⟨fnName n a ((optionals n e).filter missing), (e.args.filter (passed n missing)).map (argExpr n)⟩

/-- The parameters that belong to a pattern of missing children: type and name. -/
def wantedParams (n : Node) (e : Equation) (missing : Child → Bool) : List (CStr × CStr) :=
  (e.args.filter (passed n missing)).map fun a => (a.type, owner a ++ [95] ++ a.iattr.lwr)

/-- Two references mean the same attribute: both of the node itself or both of the same child. -/
def SameRef (a b : ARef) : Prop := a.inode.map Id.lwr = b.inode.map Id.lwr ∧ a.iattr.lwr = b.iattr.lwr

/-- No attribute has two equations, and no child is spelt like the keyword `this` up to case. -/
def Unique (n : Node) : Prop :=
  n.equations.Pairwise (fun e f => ¬ SameRef e.rule f.rule) ∧
    ∀ e ∈ n.equations, ∀ i, e.rule.inode = some i → i.lwr ≠ [116, 104, 105, 115]

end Verif.Spec.EvalGen
