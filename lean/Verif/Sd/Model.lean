import Verif.Rd.Model

/-!
# Model: service descriptions of SPARQL endpoints, read from a graph

`P` is `sparql_service/src/service_description_parser.rs`, `V` is `service_description_vocab.rs`, `D` is
`service_description.rs` beside it; `CO`, `PR`, `UT`, `TY` are `combinators.rs`, `constructors/property.rs`, `utils.rs` and
`constructors/typing.rs` of the parsers of nodes (see `Rd/Model.lean`).

The parsers are those of `Rd/Model.lean`, with a focus that is moved, and sets that are traversed in any order at each
reading. Literals are outside: their integers and texts are a parameter. What is not read (`void:properties`,
`void:entities`, `void:documents`, entailment regimes) is not in the records: the code leaves those fields empty. The
texts of errors and of `Display` are not modelled.
-/

namespace Sd
open Rd

/-! ## Names (V 5-41) -/

def dctTitle : Iri := .o "http://purl.org/dc/terms/title"
def sdService : Iri := .o "http://www.w3.org/ns/sparql-service-description#Service"
def sdDefaultGraph : Iri := .o "http://www.w3.org/ns/sparql-service-description#defaultGraph"
def sdNamedGraph : Iri := .o "http://www.w3.org/ns/sparql-service-description#namedGraph"
def sdName : Iri := .o "http://www.w3.org/ns/sparql-service-description#name"
def sdGraph : Iri := .o "http://www.w3.org/ns/sparql-service-description#graph"
def sdDefaultDataset : Iri := .o "http://www.w3.org/ns/sparql-service-description#defaultDataset"
def sdEndpoint : Iri := .o "http://www.w3.org/ns/sparql-service-description#endpoint"
def sdFeature : Iri := .o "http://www.w3.org/ns/sparql-service-description#feature"
def sdSupportedLanguage : Iri := .o "http://www.w3.org/ns/sparql-service-description#supportedLanguage"
def sdResultFormat : Iri := .o "http://www.w3.org/ns/sparql-service-description#resultFormat"
def sdAvailableGraphs : Iri := .o "http://www.w3.org/ns/sparql-service-description#availableGraphs"
def voidTriples : Iri := .o "http://rdfs.org/ns/void#triples"
def voidClasses : Iri := .o "http://rdfs.org/ns/void#classes"
def voidProperty : Iri := .o "http://rdfs.org/ns/void#property"
def voidClass : Iri := .o "http://rdfs.org/ns/void#class"
def voidClassPartition : Iri := .o "http://rdfs.org/ns/void#classPartition"
def voidPropertyPartition : Iri := .o "http://rdfs.org/ns/void#propertyPartition"

/-! ## Descriptions -/

/-- `SupportedLanguage` (`supported_language.rs`). -/
inductive Language where
  | sparql10Query | sparql11Query | sparql11Update
deriving DecidableEq

/-- `Feature` (`feature.rs` 6-14). -/
inductive Feature where
  | dereferencesUris | unionDefaultGraph | requiresDataset | emptyGraphs | basicFederatedQuery
  | other (i : Iri)
deriving DecidableEq

/-- `SparqlResultFormat` (`sparql_result_format.rs` 5-16). -/
inductive Format where
  | xml | turtle | tsv | rdfXml | json | nTriples | csv | jsonLd
  | other (i : Iri)
deriving DecidableEq

/-- `PropertyPartition` (`property_partition.rs` 6-12). Identifiers are IRIs or blank nodes, here terms. -/
structure PropPart (L : Type) where
  id : Tm L
  property : Iri
  triples : Option Int

/-- `ClassPartition` (`class_partition.rs` 7-14). -/
structure ClassPart (L : Type) where
  id : Tm L
  cls : Iri
  properties : List (PropPart L)

/-- `GraphDescription` (`graph_description.rs` 6-23). -/
structure GraphDesc (L : Type) where
  id : Tm L
  triples : Option Int
  classes : Option Int
  classParts : List (ClassPart L)
  propParts : List (PropPart L)

/-- `NamedGraphDescription` (`named_graph_description.rs` 7-18). -/
structure NamedGraph (L : Type) where
  id : Tm L
  name : Iri
  graphs : List (GraphDesc L)

/-- `GraphCollection` (`graph_collection.rs` 6-12); the collection is a hash set, made of descriptions whose identifiers are
different. -/
structure Collection (L : Type) where
  id : Tm L
  graphs : List (NamedGraph L)

/-- `Dataset` (`dataset.rs` 8-13). -/
structure Dataset (L : Type) where
  id : Tm L
  defaultGraph : Option (GraphDesc L)
  namedGraphs : List (NamedGraph L)

/-- `ServiceDescription` (D 27-57) without the prefix map. -/
structure Service (L : Type) where
  title : Option String
  endpoint : Option Iri
  dataset : Option (Dataset L)
  languages : List Language
  features : List Feature
  formats : List Format
  available : List (Collection L)

/-- `supported_language_iri` (P 191-200). -/
def languageOf (i : Iri) : Option Language :=
  if i = .o "http://www.w3.org/ns/sparql-service-description#SPARQL10Query" then some .sparql10Query
  else if i = .o "http://www.w3.org/ns/sparql-service-description#SPARQL11Query" then some .sparql11Query
  else if i = .o "http://www.w3.org/ns/sparql-service-description#SPARQL11Update" then some .sparql11Update
  else none

/-- `result_format_iri` (P 202-215). -/
def formatOf (i : Iri) : Format :=
  if i = .o "http://www.w3.org/ns/formats/SPARQL_Results_XML" then .xml
  else if i = .o "http://www.w3.org/ns/formats/JSON-LD" then .jsonLd
  else if i = .o "http://www.w3.org/ns/formats/N-Triples" then .nTriples
  else if i = .o "http://www.w3.org/ns/formats/SPARQL_Results_CSV" then .csv
  else if i = .o "http://www.w3.org/ns/formats/SPARQL_Results_JSON" then .json
  else if i = .o "http://www.w3.org/ns/formats/Turtle" then .turtle
  else if i = .o "http://www.w3.org/ns/formats/SPARQL_Results_TSV" then .tsv
  else if i = .o "http://www.w3.org/ns/formats/RDF_XML" then .rdfXml
  else .other i

/-- `feature_iri` (P 217-226). -/
def featureOf (i : Iri) : Feature :=
  if i = .o "http://www.w3.org/ns/sparql-service-description#BasicFederatedQuery" then .basicFederatedQuery
  else if i = .o "http://www.w3.org/ns/sparql-service-description#UnionDefaultGraph" then .unionDefaultGraph
  else if i = .o "http://www.w3.org/ns/sparql-service-description#EmptyGraphs" then .emptyGraphs
  else if i = .o "http://www.w3.org/ns/sparql-service-description#RequiresDataset" then .requiresDataset
  else if i = .o "http://www.w3.org/ns/sparql-service-description#DereferencesURIs" then .dereferencesUris
  else .other i

/-! ## Parsers -/

/-- What is outside: `to_integer` and `lexical_form` of literals. -/
structure Lits (L : Type) where
  int : L → Option Int
  text : L → String

section
variable {L A : Type}

/-- `term_to_iri` (UT 208-217). -/
def asIri : Tm L → Option Iri
  | .iri i => some i
  | _ => none

/-- `term_to_iri_or_blanknode` (UT 239-258). -/
def asNode : Tm L → Option (Tm L)
  | .lit _ => none
  | t => some t

/-- `term_to_int` (UT 99-111). -/
def Lits.asInt (I : Lits L) : Tm L → Option Int
  | .lit l => I.int l
  | _ => none

/-- `term_to_string` (UT 279-288). -/
def Lits.asText (I : Lits L) : Tm L → Option String
  | .lit l => some (I.text l)
  | _ => none

variable [DecidableEq L] (I : Lits L) (g : Gr L)

/-- `SingleIriPropertyParser`, `SingleIntegerPropertyParser`, `SingleStringPropertyParser`,
`SingleIriOrBlankNodePropertyParser` (PR 430-579): any one of the values, converted. -/
def one (f : Tm L → Option A) (p : Iri) : Pr L A := do
  let t ← single g p
  lift (f t)

/-- `IrisPropertyParser` (PR 284-299) with the conversion of each IRI (P 153-189). -/
def every (f : Iri → Option A) (p : Iri) : Pr L (List A) := do
  let vs ← values g p
  lift (vs.mapM fun t => (asIri t).bind f)

/-- `MapPropertyValuesParser` (CO 511-538). -/
def mapProperty (p : Iri) (q : Pr L A) : Pr L (List A) := do
  let f ← getFocus
  let vs ← values g p
  let r ← each (fun v => do
    setFocus v
    q) vs
  setFocus f
  ret r

/-- `try_into().expect(..)`: an IRI or a blank node, or a panic. -/
def expectNode (t : Tm L) : Pr L (Tm L) := if t.isLit then Rd.panic else ret t

/-- `property_partition` (P 459-482). -/
def propertyPartition : Pr L (PropPart L) := do
  let f ← getFocus
  let p ← one g asIri voidProperty
  let n ← Rd.optional (one g I.asInt voidTriples)
  let id ← expectNode f
  ret ⟨id, p, n⟩

/-- `class_partition` (P 435-457): property partitions are sought with `void:property`. -/
def classPartition : Pr L (ClassPart L) := do
  let f ← getFocus
  let c ← one g asIri voidClass
  let ps ← mapProperty g voidProperty (propertyPartition I g)
  let id ← expectNode f
  ret ⟨id, c, ps⟩

/-- `graph_description` (P 297-324), with `parse_void_triples`, `parse_void_classes`, `parse_void_class_partition` and
`parse_void_property_partition` (P 389-433). -/
def graphDescription (node : Tm L) : Pr L (GraphDesc L) := do
  setFocus node
  setFocus node
  let n ← Rd.optional (one g I.asInt voidTriples)
  setFocus node
  let c ← Rd.optional (one g I.asInt voidClasses)
  setFocus node
  let cs ← mapProperty g voidClassPartition (classPartition I g)
  setFocus node
  let ps ← mapProperty g voidPropertyPartition (propertyPartition I g)
  ret ⟨node, n, c, cs, ps⟩

/-- `graph` (P 375-387). -/
def graph : Pr L (GraphDesc L) := do
  let f ← getFocus
  let id ← expectNode f
  graphDescription I g id

/-- `named_graph` and `named_graph_description` (P 335-366), `name` (P 368-373). -/
def namedGraph : Pr L (NamedGraph L) := do
  let f ← getFocus
  setFocus f
  let n ← one g asIri sdName
  let gs ← mapProperty g sdGraph (graph I g)
  let id ← expectNode f
  ret ⟨id, n, gs⟩

/-- `default_graph` (P 284-295). -/
def defaultGraph (focus : Tm L) : Pr L (GraphDesc L) := do
  setFocus focus
  let n ← one g asNode sdDefaultGraph
  graphDescription I g n

/-- `dataset` (P 264-282), `named_graphs` (P 326-333). -/
def dataset (node : Tm L) : Pr L (Dataset L) := do
  setFocus node
  let d ← Rd.optional (defaultGraph I g node)
  setFocus node
  let ns ← mapProperty g sdNamedGraph (namedGraph I g)
  ret ⟨node, d, ns⟩

/-- `default_dataset` (P 254-262). -/
def defaultDataset (focus : Tm L) : Pr L (Dataset L) := do
  setFocus focus
  let n ← one g asNode sdDefaultDataset
  dataset I g n

/-- `available_graph` (P 236-252). -/
def availableGraph : Pr L (Collection L) := do
  let f ← getFocus
  let ns ← mapProperty g sdNamedGraph (namedGraph I g)
  let id ← expectNode f
  ret ⟨id, ns⟩

/-- `service_description` (P 58-117), with `title`, `endpoint`, `feature`, `result_format`, `supported_language` and
`available_graphs` (P 120-161, 228-234). -/
def serviceDescription : Pr L (Service L) := do
  let f ← getFocus
  let focus ← lift (asNode f)
  let e ← Rd.optional (one g asIri sdEndpoint)
  let ls ← every g languageOf sdSupportedLanguage
  let rs ← every g (fun i => some (formatOf i)) sdResultFormat
  let fs ← every g (fun i => some (featureOf i)) sdFeature
  let ds ← Rd.optional (defaultDataset I g focus)
  setFocus focus
  let ags ← mapProperty g sdAvailableGraphs (availableGraph I g)
  setFocus focus
  let t ← Rd.optional (one g I.asText dctTitle)
  ret ⟨t, e, ds, ls, fs, rs, ags⟩

/-- `InstancesParser` (TY 141-159): the subjects of the triples with this type; a graph has no triple twice. -/
def instances (c : Iri) : List (Tm L) :=
  ((g.ts.filter fun t => decide (t.2 = (.v .type, .iri c))).map fun t => t.1).dedup

/-- `parse` (P 49-55) with `SingleInstanceParser` (TY 61-86). -/
def parse : Pr L (Service L) :=
  match instances g sdService with
  | [x] => do
    setFocus x
    serviceDescription I g
  | _ => fail

end

/-! ## MIE -/

/-- What is filled in of `Mie` (`mie/src/mie.rs` 14-35, 60-80). -/
structure Mie where
  title : Option String
  endpoint : Option Iri
  graphs : List Iri
  prefixes : List (String × Iri)

/-- The loop over the available graphs (D 155-161): the names so far, and the graphs of the result. `ord` is the order in
which a collection is traversed. -/
def mieGraphs {L : Type} (ord : List (NamedGraph L) → List (NamedGraph L)) :
    List (Collection L) → List Iri → List Iri → List Iri
  | [], _, gs => gs
  | c :: cs, names, _ =>
    let names' := names ++ (ord c.graphs).map (·.name)
    mieGraphs ord cs names' names'

/-- `service2mie` (D 145-167). -/
def service2mie {L : Type} (ord : List (NamedGraph L) → List (NamedGraph L)) (s : Service L)
    (pm : Option (List (String × Iri))) : Mie :=
  ⟨s.title, s.endpoint, mieGraphs ord s.available [] [], pm.getD []⟩

end Sd
