import Verif.Act.Model

/-!
# EXTERNAL shapes

A model of shex_ast/src/ir/external_resolver.rs: the chain of resolvers, which replace declarations
before the schema is compiled and answer for the EXTERNAL shapes that are left. Of a shape
expression it matters only whether it is EXTERNAL.
-/

namespace Act

/-- `ast::ShapeExpr`: EXTERNAL or any other expression. -/
inductive Body (E : Type) where
  | external
  | expr (e : E)
  deriving DecidableEq

/-- `ast::ShapeDecl` (shex_ast/src/ast/shape_decl.rs). -/
structure Decl (L E : Type) where
  id : L
  body : Body E
  abstr : Bool
  deriving DecidableEq

/-- `ExternalResolution` without the reasons (external_resolver.rs:36-41). -/
inductive Verdict where
  | conformant
  | nonConformant
  | abstain
  deriving DecidableEq

/-- An `ExternalShapeResolver` (external_resolver.rs:54-67): the declarations of the schema that it
puts in place of EXTERNAL ones, if it is a `SchemaExternalResolver`, and its answers for a node and
the label of a shape. -/
structure Resolver (N L E : Type) where
  externs : Option (List (Decl L E))
  resolve : N → Option L → Verdict

variable {N L E : Type} [DecidableEq L]

/-- `RejectAllExternalResolver` (external_resolver.rs:147-159). -/
def Resolver.rejectAll : Resolver N L E := ⟨none, fun _ _ => .nonConformant⟩

/-- `SchemaExternalResolver::from_schema` (external_resolver.rs:195-200, 207-226); `none` is a schema
without shapes. -/
def Resolver.schema (externs : Option (List (Decl L E))) : Resolver N L E :=
  ⟨externs, fun _ _ => .abstain⟩

/-- `lookup_decl` (external_resolver.rs:229-231). -/
def lookupDecl (decls : List (Decl L E)) (l : L) : Option (Decl L E) :=
  decls.find? fun d => d.id == l

/-- The body of the loop of `rewrite_ast` (external_resolver.rs:218-223). -/
def rewriteDecl (lookups : List (Decl L E)) (d : Decl L E) : Decl L E :=
  match d.body with
  | .external =>
    match lookupDecl lookups d.id with
    | some m => { d with body := m.body }
    | none => d
  | .expr _ => d

/-- `rewrite_ast` (external_resolver.rs:212-226, 58-60). -/
def Resolver.rewrite (r : Resolver N L E) (ds : List (Decl L E)) : List (Decl L E) :=
  match r.externs with
  | none => ds
  | some lookups => ds.map (rewriteDecl lookups)

/-- `ExternalShapeResolverRegistry::default` (external_resolver.rs:80-84). -/
def defaultChain : List (Resolver N L E) := [.rejectAll]

/-- `with_resolver` (external_resolver.rs:97-100). -/
def withResolver (chain : List (Resolver N L E)) (r : Resolver N L E) : List (Resolver N L E) :=
  r :: chain

/-- `ExternalShapeResolverRegistry::rewrite_ast` (external_resolver.rs:114-119). -/
def rewriteAll (chain : List (Resolver N L E)) (ds : List (Decl L E)) : List (Decl L E) :=
  chain.foldl (fun ds r => r.rewrite ds) ds

/-- `dispatch` (external_resolver.rs:122-141). -/
def dispatch : List (Resolver N L E) → N → Option L → Verdict
  | [], _, _ => .abstain
  | r :: rs, n, l =>
    match r.resolve n l with
    | .abstain => dispatch rs n l
    | v => v

/-- The case EXTERNAL of `check_node_shape_expr` (engine.rs:569-602). -/
def checkExternal (chain : List (Resolver N L E)) (n : N) (l : Option L) : Bool :=
  decide (dispatch chain n l = .conformant)

/-! ## Specifications of resolvers -/

/-- `ExternalResolverError` (external_resolver.rs:233-249). -/
inductive SpecErr where
  | parse
  | unknownKind
  | missingArg
  | forbiddenArg
  deriving DecidableEq

/-- What `resolver_from_spec` constructs; the path of the schema. -/
inductive SpecKind where
  | rejectAll
  | schema (path : Text)
  deriving DecidableEq

/-- `str::split_once(':')`. -/
def splitColon : Text → Option (Text × Text)
  | [] => none
  | ':' :: cs => some ([], cs)
  | c :: cs => (splitColon cs).map fun r => (c :: r.1, r.2)

/-- `reject-all`. -/
def rejectAllName : Text := "reject-all".toList

/-- `schema`. -/
def schemaName : Text := "schema".toList

/-- `resolver_from_spec` (external_resolver.rs:291-315); `loads` tells whether the file can be read. -/
def fromSpec (ws : Char → Bool) (loads : Text → Bool) (spec : Text) : Except SpecErr SpecKind :=
  let ka : Text × Option Text := match splitColon spec with
    | some (k, a) => (trim ws k, some (trim ws a))
    | none => (trim ws spec, none)
  if ka.1 = rejectAllName then
    match ka.2 with
    | none => .ok .rejectAll
    | some _ => .error .forbiddenArg
  else if ka.1 = schemaName then
    match ka.2 with
    | some path =>
      if !path.isEmpty then (if loads path then .ok (.schema path) else .error .parse)
      else .error .missingArg
    | none => .error .missingArg
  else .error .unknownKind

end Act
