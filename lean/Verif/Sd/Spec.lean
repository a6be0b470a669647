import Verif.Sd.Model

/-!
# Specification: what a service description says of a graph
-/

namespace Sd
open Rd

section
variable {L A : Type} (g : Gr L)

/-- The graph has this triple. -/
def Says (s : Tm L) (p : Iri) (o : Tm L) : Prop := s.isLit = false ∧ (s, p, o) ∈ g.ts

/-- The value is made of one of the values of the property. -/
def One (s : Tm L) (p : Iri) (R : Tm L → A → Prop) (a : A) : Prop := ∃ o, Says g s p o ∧ R o a

/-- There is a value made of one of the values of the property, or there is none, as the property has no value at all or
has one of which nothing can be made. -/
def Maybe (s : Tm L) (p : Iri) (R : Tm L → A → Prop) : Option A → Prop
  | some a => One g s p R a
  | none => (∀ o, ¬ Says g s p o) ∨ ∃ o, Says g s p o ∧ ∀ a, ¬ R o a

/-- The list has one item for each of the values of the property. -/
def Each (s : Tm L) (p : Iri) (R : Tm L → A → Prop) (l : List A) : Prop :=
  ∃ vs : List (Tm L), vs.Nodup ∧ (∀ v, v ∈ vs ↔ Says g s p v) ∧ List.Forall₂ R vs l

/-- The term is this IRI. -/
def IsIri (t : Tm L) (i : Iri) : Prop := t = .iri i

/-- The term is a literal for this integer. -/
def IsInt (I : Lits L) (t : Tm L) (n : Int) : Prop := ∃ l, t = .lit l ∧ I.int l = some n

/-- The term is a literal with this text. -/
def IsText (I : Lits L) (t : Tm L) (x : String) : Prop := ∃ l, t = .lit l ∧ I.text l = x

variable (I : Lits L)

/-- The description of a property partition. -/
structure IsPropPart (t : Tm L) (d : PropPart L) : Prop where
  id : d.id = t
  property : One g t voidProperty IsIri d.property
  triples : Maybe g t voidTriples (IsInt I) d.triples

/-- The description of a class partition, as the code reads it. -/
structure IsClassPart (t : Tm L) (d : ClassPart L) : Prop where
  id : d.id = t
  cls : One g t voidClass IsIri d.cls
  properties : Each g t voidProperty (IsPropPart g I) d.properties

/-- The description of a graph. -/
structure IsGraph (t : Tm L) (d : GraphDesc L) : Prop where
  id : d.id = t
  node : t.isLit = false
  triples : Maybe g t voidTriples (IsInt I) d.triples
  classes : Maybe g t voidClasses (IsInt I) d.classes
  classParts : Each g t voidClassPartition (IsClassPart g I) d.classParts
  propParts : Each g t voidPropertyPartition (IsPropPart g I) d.propParts

/-- The description of a named graph. -/
structure IsNamed (t : Tm L) (d : NamedGraph L) : Prop where
  id : d.id = t
  name : One g t sdName IsIri d.name
  graphs : Each g t sdGraph (IsGraph g I) d.graphs

/-- A collection of graphs. -/
structure IsCollection (t : Tm L) (d : Collection L) : Prop where
  id : d.id = t
  node : t.isLit = false
  graphs : Each g t sdNamedGraph (IsNamed g I) d.graphs

/-- A dataset whose named graphs are described. -/
structure IsDataset (t : Tm L) (d : Dataset L) : Prop where
  id : d.id = t
  node : t.isLit = false
  namedGraphs : Each g t sdNamedGraph (IsNamed g I) d.namedGraphs
  defaultGraph : ∀ x, d.defaultGraph = some x → One g t sdDefaultGraph (IsGraph g I) x

/-- The names of the languages. -/
inductive LanguageIri : Iri → Language → Prop
  | q10 : LanguageIri (.o "http://www.w3.org/ns/sparql-service-description#SPARQL10Query") .sparql10Query
  | q11 : LanguageIri (.o "http://www.w3.org/ns/sparql-service-description#SPARQL11Query") .sparql11Query
  | u11 : LanguageIri (.o "http://www.w3.org/ns/sparql-service-description#SPARQL11Update") .sparql11Update

/-- The features that have names. -/
def featureNames : List (String × Feature) :=
  [("http://www.w3.org/ns/sparql-service-description#DereferencesURIs", .dereferencesUris),
   ("http://www.w3.org/ns/sparql-service-description#UnionDefaultGraph", .unionDefaultGraph),
   ("http://www.w3.org/ns/sparql-service-description#RequiresDataset", .requiresDataset),
   ("http://www.w3.org/ns/sparql-service-description#EmptyGraphs", .emptyGraphs),
   ("http://www.w3.org/ns/sparql-service-description#BasicFederatedQuery", .basicFederatedQuery)]

/-- The formats that have names. -/
def formatNames : List (String × Format) :=
  [("http://www.w3.org/ns/formats/SPARQL_Results_XML", .xml), ("http://www.w3.org/ns/formats/Turtle", .turtle),
   ("http://www.w3.org/ns/formats/SPARQL_Results_TSV", .tsv), ("http://www.w3.org/ns/formats/RDF_XML", .rdfXml),
   ("http://www.w3.org/ns/formats/SPARQL_Results_JSON", .json), ("http://www.w3.org/ns/formats/N-Triples", .nTriples),
   ("http://www.w3.org/ns/formats/SPARQL_Results_CSV", .csv), ("http://www.w3.org/ns/formats/JSON-LD", .jsonLd)]

/-- The feature of an IRI: by its name, or the IRI itself. -/
def FeatureIri (i : Iri) (f : Feature) : Prop :=
  (∃ s, i = .o s ∧ (s, f) ∈ featureNames) ∨ ((∀ s x, i = .o s → (s, x) ∉ featureNames) ∧ f = .other i)

/-- The format of an IRI. -/
def FormatIri (i : Iri) (f : Format) : Prop :=
  (∃ s, i = .o s ∧ (s, f) ∈ formatNames) ∨ ((∀ s x, i = .o s → (s, x) ∉ formatNames) ∧ f = .other i)

/-- The description of a service. -/
structure IsService (t : Tm L) (d : Service L) : Prop where
  title : Maybe g t dctTitle (IsText I) d.title
  endpoint : Maybe g t sdEndpoint IsIri d.endpoint
  languages : Each g t sdSupportedLanguage (fun o l => ∃ i, o = .iri i ∧ LanguageIri i l) d.languages
  features : Each g t sdFeature (fun o f => ∃ i, o = .iri i ∧ FeatureIri i f) d.features
  formats : Each g t sdResultFormat (fun o f => ∃ i, o = .iri i ∧ FormatIri i f) d.formats
  available : Each g t sdAvailableGraphs (IsCollection g I) d.available
  dataset : ∀ x, d.dataset = some x → One g t sdDefaultDataset (IsDataset g I) x

/-! ## Descriptions in order -/

/-- The property has values, and all are IRIs. -/
def HasIris (t : Tm L) (p : Iri) : Prop := (∃ o, Says g t p o) ∧ ∀ o, Says g t p o → ∃ i, o = .iri i

/-- A property partition in order. -/
def GoodProp (t : Tm L) : Prop := HasIris g t voidProperty

/-- A class partition in order, as the code wants it. -/
def GoodClass (t : Tm L) : Prop := HasIris g t voidClass ∧ ∀ o, Says g t voidProperty o → GoodProp g o

/-- A graph in order. -/
def GoodGraph (t : Tm L) : Prop :=
  t.isLit = false ∧ (∀ o, Says g t voidClassPartition o → GoodClass g o) ∧
  ∀ o, Says g t voidPropertyPartition o → GoodProp g o

/-- A named graph in order. -/
def GoodNamed (t : Tm L) : Prop := HasIris g t sdName ∧ ∀ o, Says g t sdGraph o → GoodGraph g o

/-- A collection in order. -/
def GoodCollection (t : Tm L) : Prop := t.isLit = false ∧ ∀ o, Says g t sdNamedGraph o → GoodNamed g o

/-- A dataset in order. -/
def GoodDataset (t : Tm L) : Prop :=
  t.isLit = false ∧ (∀ o, Says g t sdNamedGraph o → GoodNamed g o) ∧ ∀ o, Says g t sdDefaultGraph o → GoodGraph g o

/-- A service in order. -/
structure GoodService (t : Tm L) : Prop where
  languages : ∀ o, Says g t sdSupportedLanguage o → ∃ i l, o = .iri i ∧ LanguageIri i l
  features : ∀ o, Says g t sdFeature o → ∃ i, o = .iri i
  formats : ∀ o, Says g t sdResultFormat o → ∃ i, o = .iri i
  available : ∀ o, Says g t sdAvailableGraphs o → GoodCollection g o
  dataset : ∀ o, Says g t sdDefaultDataset o → GoodDataset g o

/-- There is one service. -/
def TheService (x : Tm L) : Prop := ∀ y, (y, Iri.v .type, .iri sdService) ∈ g.ts ↔ y = x

end

end Sd
