import Verif.Model.Described
import Verif.Model.EnumHeader
import Verif.Model.Trav
import Verif.Model.Declared

/-!
# Model of the generators of traversal data (`cocogen/dynamic_backend/gen_trav_*.c`)

`trav_data.h` and `trav_data.c` for the data of traversals (`cocogen/main.ccn:135-148`): what is printed, what a C compiler needs of it, and
what the printed functions do on the state of the traversal core (`Verif.Trav`).

* The text is represented by its parts.  White space, comments, pragmas and includes are left out.
* The types of the user come from the header of the user (`user_types.h`, `cocogen/dynamic_backend/file_switchers.c:101-114`) and are assumed
  to exist there and to be scalar: the printed functions assign 0 to them.
* The names of the functions are the subject of `Verif.Declared`; here functions are found by their names in `trav_data.c`.
* Tags of `ast.h` start with `NODE_`, or are `ccn_node` (`cocogen/dynamic_backend/gen_node_structs.c:32-67`,
  `gen_node_base_and_union.c:50-66`), and so are different from those here; they are left out.
* Macros without parameters of the standard headers, besides those of `stdbool.h`, are left out.
-/

namespace Verif.TravData
open Verif.Str Verif.Ids Verif.Semantic
open Verif.NodeGen (AT CTy Rhs keywords twice FMTattributeDefaultVal FMTattributeTypeToString origOf)
open Verif.Trav (Addr Ptr Val St Env)

/-- An `itravdata` (`cocogen/main.ccn:833-844`). -/
structure Datum where
  name : Id
  type : AT
  ref : Option Id

/-- An `itraversal` (`cocogen/main.ccn:653-665`). -/
structure Trav where
  name : Id
  uid : Id
  data : List Datum

/-- What the generators read: traversals, symbol table, enumerations (`cocogen/main.ccn:606-623`). -/
structure Input where
  travs : List Trav
  table : List (Ste Decl)
  enums : List Id

/-- Data as the parser has left it, with the type the check of references has filled in (`cocogen/main.ccn:833-844`,
`cocogen/frontend/check_existance.c:108-121`). -/
def datumOf (d : Parse.TravData) (c : CheckExist.Attr) : Datum where
  name := idOf d.name
  type :=
    match c.type with
    | .link => .link
    | .linkOrEnum => .linkOrEnum
    | .user => .user
    | .prim => Described.basicOf (primOf d.type)
  ref := d.ref.map idOf

/-- A traversal (`cocogen/main.ccn:653-665`). -/
def travOf (t : Parse.Traversal) (c : CheckExist.Traversal) : Trav := ⟨idOf t.name, idOf t.uid, List.zipWith datumOf t.data c.data⟩

/-- The input for a description (`cocogen/main.ccn:606-623`); `q` is the tree after the check of references. -/
def inputOf (A : Parse.Ast) (tab : List (Ste Decl)) (q : CheckExist.Prog) : Input where
  travs := List.zipWith travOf A.traversals q.traversals
  table := tab
  enums := A.enums.map fun e => idOf e.name

/-! ## `trav_data.h` -/

/-- `data_` (`cocogen/dynamic_backend/gen_trav_structs.c:24`). -/
def sDataU : CStr := [100, 97, 116, 97, 95]
/-- `TRAV_DATA` (`cocogen/dynamic_backend/gen_trav_data_union.c:19`). -/
def sUnion : CStr := [84, 82, 65, 86, 95, 68, 65, 84, 65]
/-- `DATA_` (`cocogen/dynamic_backend/gen_trav_data_getters.c:13`). -/
def sDATA : CStr := [68, 65, 84, 65, 95]
/-- `_GET` (`cocogen/dynamic_backend/gen_trav_data_getters.c:13`). -/
def sGET : CStr := [95, 71, 69, 84]

/-- A field: type and name. -/
abbrev Field := CTy × CStr

/-- The lookup of an enum and the two assertions (`cocogen/dynamic_backend/gen_trav_structs.c:39-41`). -/
def enumName (I : Input) (ref : Option Id) : Res CStr := do
  let found ← STlookup I.table ref
  match found with
  | none => .abort "assert(corr_enum != NULL)"
  | some d =>
    match d.kind with
    | .enum =>
      match I.enums[d.index]? with
      | none => .ub "no such enum"
      | some e => .ok e.orig
    | _ => .abort "assert(NT_IENUM)"

/-- The text in `DGTDSitravdata` for one datum (`cocogen/dynamic_backend/gen_trav_structs.c:36-49`). -/
def fieldOf (I : Input) (d : Datum) : Res Field :=
  match d.type with
  | .link => .ok (.nodePtr, d.name.orig)
  | .linkOrEnum => do
    let e ← enumName I d.ref
    .ok (.enum e, d.name.orig)
  | .user => do
    let r ← origOf d.ref
    .ok (.named r, d.name.orig)
  | t => do
    let y ← FMTattributeTypeToString t
    .ok (y, d.name.orig)

/-- `DGTDSitravdata` (`cocogen/dynamic_backend/gen_trav_structs.c:33-52`) along the list. -/
def DGTDSitravdata (I : Input) : List Datum → Res (List Field)
  | [] => .ok []
  | d :: rest => do
    let f ← fieldOf I d
    let fs ← DGTDSitravdata I rest
    .ok (f :: fs)

/-- A generated structure. -/
structure Struct where
  tag : CStr
  fields : List Field
  deriving DecidableEq

/-- `DGTDSitraversal` (`cocogen/dynamic_backend/gen_trav_structs.c:20-30`). -/
def DGTDSitraversal (I : Input) : List Trav → Res (List Struct)
  | [] => .ok []
  | t :: rest =>
    match t.data with
    | [] => DGTDSitraversal I rest
    | d :: ds => do
      let fs ← DGTDSitravdata I (d :: ds)
      let ss ← DGTDSitraversal I rest
      .ok (⟨sDataU ++ t.uid.lwr, fs⟩ :: ss)

/-- A member of the union: a pointer to the structure with the tag. -/
structure Member where
  tag : CStr
  name : CStr
  deriving DecidableEq

/-- `DGTDUitraversal` (`cocogen/dynamic_backend/gen_trav_data_union.c:33-42`). -/
def DGTDUitraversal : List Trav → List Member
  | [] => []
  | t :: rest =>
    match t.data with
    | [] => DGTDUitraversal rest
    | _ :: _ => ⟨sDataU ++ t.uid.lwr, t.name.lwr⟩ :: DGTDUitraversal rest

/-- A macro without parameters in parentheses: its name, and the member of the union that it is (of the current traversal). -/
structure Getter where
  name : CStr
  member : CStr
  deriving DecidableEq

/-- `DGTDGitraversal` (`cocogen/dynamic_backend/gen_trav_data_getters.c:7-19`). -/
def DGTDGitraversal : List Trav → List Getter
  | [] => []
  | t :: rest =>
    match t.data with
    | [] => DGTDGitraversal rest
    | _ :: _ => ⟨sDATA ++ t.uid.upr ++ sGET, t.name.lwr⟩ :: DGTDGitraversal rest

/-! ## `trav_data.c` -/

/-- The statements in the generated functions. -/
inductive Stmt where
  /-- `trav->trav_data.<member> = MEMmalloc(sizeof(struct <tag>));` -/
  | alloc (member tag : CStr)
  /-- `struct <tag> *data = trav->trav_data.<member>;` -/
  | bind (tag member : CStr)
  /-- `data-><field> = <value>;` -/
  | set (field : CStr) (value : Rhs)
  /-- `<name>();` -/
  | call (name : CStr)
  /-- `MEMfree(trav->trav_data.<member>);` -/
  | free (member : CStr)
  deriving DecidableEq

/-- A generated function: the name and the body. -/
structure Func where
  name : CStr
  body : List Stmt
  deriving DecidableEq

/-- What is assigned to a datum (`cocogen/dynamic_backend/gen_trav_data_ctors.c:52-57`). -/
def rhsOf (x : Datum) : Res Rhs :=
  match x.type with
  | .user => .ok .zero
  | t => FMTattributeDefaultVal t

/-- `DGTDCitravdata` (`cocogen/dynamic_backend/gen_trav_data_ctors.c:40-61`) along the list, when functions are printed.  The traversal before
it, with `check_user_type`, prints nothing. -/
def DGTDCitravdata : List Datum → Res (List Stmt)
  | [] => .ok []
  | d :: rest => do
    let v ← rhsOf d
    let ss ← DGTDCitravdata rest
    .ok (.set d.name.orig v :: ss)

/-- `DGTDCitraversal` (`cocogen/dynamic_backend/gen_trav_data_ctors.c:9-37`). -/
def DGTDCitraversal : List Trav → Res (List Func)
  | [] => .ok []
  | t :: rest =>
    match t.data with
    | [] => DGTDCitraversal rest
    | d :: ds => do
      let ss ← DGTDCitravdata (d :: ds)
      let fs ← DGTDCitraversal rest
      .ok (⟨Tables.sData true ++ t.name.orig,
          .alloc t.name.lwr (sDataU ++ t.uid.lwr) :: .bind (sDataU ++ t.uid.lwr) t.name.lwr :: (ss ++ [.call (t.uid.upr ++ Declared.sInit)])⟩ ::
        ⟨Tables.sData false ++ t.name.orig, [.call (t.uid.upr ++ Declared.sFini), .free t.name.lwr]⟩ :: fs)

/-- What is generated. -/
structure Code where
  structs : List Struct
  union : List Member
  getters : List Getter
  funcs : List Func

/-- The actions in `dynamicGenTravData` (`cocogen/main.ccn:135-148`). -/
def generate (I : Input) : Res Code := do
  let ss ← DGTDSitraversal I I.travs
  let fs ← DGTDCitraversal I.travs
  .ok ⟨ss, DGTDUitraversal I.travs, DGTDGitraversal I.travs, fs⟩

/-! ## Compilation -/

/-- The type of a field is declared: `tags` are those of the enumerations of `enum.h`, which `ccn/ccn_types.h` includes
(`copra/ccn/ccn_types.h:3`, `cocogen/dynamic_backend/file_switchers.c:107`). -/
def typeKnown (tags : List CStr) : CTy → Bool
  | .enum e => tags.contains e
  | _ => true

/-- The fields of a structure are declared once, are identifiers, and have types. -/
def structOk (tags : List CStr) (s : Struct) : Bool :=
  !twice (s.fields.map (·.2)) && !(s.fields.map (·.2)).any keywords.contains && s.fields.all fun f => typeKnown tags f.1

/-- Compilation of `trav_data.h` (`cocogen/main.ccn:139-145`), with respect to the names in it; `tags` are the tags of `enum.h`, `macros` the
macros of `ast.h`, which it includes (`cocogen/dynamic_backend/file_switchers.c:101-114`). -/
def compile (tags macros : List CStr) (c : Code) : Res Code :=
  match twice (c.structs.map (·.tag) ++ [sUnion]) || (c.structs.map (·.tag) ++ [sUnion]).any tags.contains with
  | true => .abort "redefinition of tag"
  | false =>
    match c.structs.all (structOk tags) with
    | false => .abort "field"
    | true =>
      match twice (c.union.map (·.name)) || (c.union.map (·.name)).any keywords.contains with
      | true => .abort "member"
      | false =>
        match twice (c.getters.map (·.name)) || (c.getters.map (·.name)).any macros.contains with
        | true => .abort "macro redefined"
        | false => .ok c

/-- What is generated for a description, and compiled (`cocogen/main.ccn:33-41`, `135-148`): `o` is the result of the checks; the check of
references is run again for the tree that it leaves. -/
def travData (A : Parse.Ast) (o : Out) : Res Code := do
  let q ← CheckExist.CEXast o.tab (progOf A)
  let c ← generate (inputOf A o.tab q.prog)
  compile ((EnumHeader.header A).map (·.1)) ((NodeGen.macros (Described.nodeProg A o)).map (·.name)) c

/-! ## Running -/

/-- The value of an expression on the right-hand side (`cocogen/gen_helpers/format.c:16-46`). -/
def valueOf : Rhs → Val
  | .null => .ptr none
  | _ => .word 0

/-- The structure that a member of the union points to. -/
def memberTag (c : Code) (m : CStr) : Option CStr := (c.union.find? fun x => x.name == m).map (·.tag)

/-- The fields of the structure with a tag. -/
def fieldsOf (c : Code) (tag : CStr) : Option (List CStr) := (c.structs.find? fun s => s.tag == tag).map fun s => s.fields.map (·.2)

/-- The generated statements (`cocogen/dynamic_backend/gen_trav_data_ctors.c:22-33`), called for the `struct ccn_trav` at `a`.  `user` are
the functions of the user by name, `R` runs them.  `v` is the local variable `data`: the fields of its type, and the pointer. -/
def exec (E : Env) (R : Trav.Prog → St → Res (Ptr × St)) (c : Code) (user : CStr → Option Trav.Prog) (a : Addr) :
    List Stmt → Option (List CStr × Ptr) → St → Res St
  | [], _, s => .ok s
  | .alloc m tag :: rest, v, s =>
    match memberTag c m, fieldsOf c tag with
    | some _, some fs =>
      match s.frames a with
      | none => .ub "the traversal is released"
      | some fr =>
        match E.newData s with
        | none => .abort "out of memory"
        | some d => exec E R c user a rest v
          { s with frames := Trav.upd s.frames a (some { fr with data := some d }), dmem := Trav.upd s.dmem d (some (fs.map fun _ => Val.undef)) }
    | _, _ => .abort "does not compile"
  | .bind tag m :: rest, _, s =>
    match memberTag c m, fieldsOf c tag with
    | some t, some fs =>
      match t == tag with
      | false => .abort "incompatible pointer types"
      | true =>
        match s.frames a with
        | none => .ub "the traversal is released"
        | some fr => exec E R c user a rest (some (fs, fr.data)) s
    | _, _ => .abort "does not compile"
  | .set f x :: rest, v, s =>
    match v with
    | none => .abort "does not compile"
    | some (fs, p) =>
      match fs.idxOf? f with
      | none => .abort "does not compile"
      | some i =>
        match p with
        | none => .ub "the pointer is not set"
        | some d =>
          match s.dmem d with
          | none => .ub "the data is released"
          | some vs =>
            match decide (i < vs.length) with
            | false => .ub "out of bounds"
            | true => exec E R c user a rest v { s with dmem := Trav.upd s.dmem d (some (vs.set i (valueOf x))) }
  | .call n :: rest, v, s =>
    match user n with
    | none => .abort "does not link"
    | some p => do
      let r ← R p s
      exec E R c user a rest v r.2
  | .free m :: rest, v, s =>
    match memberTag c m with
    | none => .abort "does not compile"
    | some _ =>
      match s.frames a with
      | none => .ub "the traversal is released"
      | some fr =>
        match fr.data with
        | none => .ub "the traversal has no data"
        | some d =>
          match s.dmem d with
          | none => .ub "the data is released twice"
          | some _ => exec E R c user a rest v { s with dmem := Trav.upd s.dmem d none }

/-- A call of an entry of `trav_data_init_vtable` or `trav_data_free_vtable` (`copra/src/dynamic_core.c:11-15`, `25-26`, `35-36`). -/
def callEntry (E : Env) (R : Trav.Prog → St → Res (Ptr × St)) (c : Code) (user : CStr → Option Trav.Prog) (f : Tables.Fun) (a : Addr) (s : St) :
    Res St :=
  match f with
  | .dataNop => .ok s
  | .named n =>
    match c.funcs.find? fun g => g.name == n with
    | none => .abort "does not link"
    | some g => exec E R c user a g.body none s
  | _ => .abort "incompatible pointer types"

/-- `TRAVpush` (`copra/src/dynamic_core.c:19-27`) with the generated functions; `table` is `trav_data_init_vtable`. -/
def TRAVpush (E : Env) (R : Trav.Prog → St → Res (Ptr × St)) (c : Code) (user : CStr → Option Trav.Prog) (table : List Tables.Fun) (ty : Nat)
    (s : St) : Res St :=
  match E.newFrame s with
  | none => .abort "out of memory"
  | some a =>
    let s := { s with frames := Trav.upd s.frames a (some { prev := s.cur, ty := ty, data := none }), cur := some a }
    match table[ty]? with
    | none => .ub "index out of bounds"
    | some f => callEntry E R c user f a { s with trace := s.trace ++ [.init a ty] }

/-- `TRAVpop` (`copra/src/dynamic_core.c:29-40`) with the generated functions; `table` is `trav_data_free_vtable`. -/
def TRAVpop (E : Env) (R : Trav.Prog → St → Res (Ptr × St)) (c : Code) (user : CStr → Option Trav.Prog) (table : List Tables.Fun) (s : St) :
    Res St :=
  match s.cur with
  | none => .abort "Error in framework."
  | some a =>
    match s.frames a with
    | none => .ub "the traversal is released"
    | some fr =>
      match table[fr.ty]? with
      | none => .ub "index out of bounds"
      | some f => do
        let s ← callEntry E R c user f a s
        let s : St := { s with trace := s.trace ++ [.fini a fr.ty] }
        match s.cur with
        | none => .ok { s with cur := fr.prev }
        | some b =>
          match s.frames b with
          | none => .ub "the traversal is released twice"
          | some _ => .ok { s with frames := Trav.upd s.frames b none, cur := fr.prev }

/-- `DATA_X_GET()` (`cocogen/dynamic_backend/gen_trav_data_getters.c:13-14`, `copra/src/dynamic_core.c:42`): the fields of the type, and the
pointer. -/
def getData (c : Code) (n : CStr) (s : St) : Res (List CStr × Ptr) :=
  match c.getters.find? fun g => g.name == n with
  | none => .abort "does not compile"
  | some g =>
    match (memberTag c g.member).bind (fieldsOf c) with
    | none => .abort "does not compile"
    | some fs =>
      match s.cur with
      | none => .ub "no current traversal"
      | some a =>
        match s.frames a with
        | none => .ub "the traversal is released"
        | some fr => .ok (fs, fr.data)

end Verif.TravData
