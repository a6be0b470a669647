import Verif.Load.Model
import Mathlib.Data.List.Forall2

/-!
# Specification: loading of data

What the texts of a call mean and what is read into which data, without the functions of the loader.
-/

namespace Load

open Prefix (Str PrefixMap)

/-! ## Texts -/

/-- `t` is `s` without the white space at its ends. -/
def Trimmed (ws : Char → Bool) (s t : Str) : Prop :=
  ∃ l r : Str, s = l ++ t ++ r ∧ (∀ c ∈ l, ws c = true) ∧ (∀ c ∈ r, ws c = true) ∧
    (∀ c, t.head? = some c → ws c = false) ∧ (∀ c, t.getLast? = some c → ws c = false)

/-- The text is `a`, a colon, spaces and `b` in angle brackets. -/
def Shape (s a b : Str) : Prop :=
  ∃ k : Nat, s = a ++ ':' :: (List.replicate k ' ' ++ '<' :: (b ++ ['>']))

/-- The text, on one line, declares the prefix `p` for the IRI `i`: of the ways to read it the one with
the longest name counts. -/
def DeclText (ws : Char → Bool) (s p i : Str) : Prop :=
  '\n' ∉ s ∧ ∃ a b : Str, Shape s a b ∧ (∀ a' b' : Str, Shape s a' b' → a'.length ≤ a.length) ∧
    Trimmed ws a p ∧ Trimmed ws b i

/-- The lines of a text, without the line feeds: put together with line feeds they give the text and
none holds a line feed. -/
def LinesOf (s : Str) (ls : List Str) : Prop :=
  ls ≠ [] ∧ (∀ l ∈ ls, '\n' ∉ l) ∧ s = List.intercalate ['\n'] ls

/-- The declarations of lines, lines of white space left out. -/
inductive LineDecls (ws : Char → Bool) (valid : Str → Bool) : List Str → List (Str × Str) → Prop
  | nil : LineDecls ws valid [] []
  | blank {l ls ds} (h : ∀ c ∈ l, ws c = true) (hs : LineDecls ws valid ls ds) : LineDecls ws valid (l :: ls) ds
  | decl {l ls ds t p i} (hb : ¬ ∀ c ∈ l, ws c = true) (ht : Trimmed ws l t) (hd : DeclText ws t p i)
      (hv : valid i = true) (hs : LineDecls ws valid ls ds) : LineDecls ws valid (l :: ls) ((p, i) :: ds)

/-- The declarations of one input: a text given directly holds exactly one, a file or the content of
a URL one in each line. -/
inductive InputDecls (ws : Char → Bool) (valid : Str → Bool) : Input → List (Str × Str) → Prop
  | str {s t u p i} (hu : Trimmed ws t u) (hd : DeclText ws u p i) (hv : valid i = true) :
      InputDecls ws valid ⟨.str s, some (some t)⟩ [(p, i)]
  | path {f t ls ds} (hl : LinesOf t ls) (hd : LineDecls ws valid ls ds) :
      InputDecls ws valid ⟨.path f, some (some t)⟩ ds
  | url {f t ls ds} (hl : LinesOf t ls) (hd : LineDecls ws valid ls ds) :
      InputDecls ws valid ⟨.url f, some (some t)⟩ ds

/-- The declarations of several inputs, in order. -/
inductive AllDecls (ws : Char → Bool) (valid : Str → Bool) : List Input → List (Str × Str) → Prop
  | nil : AllDecls ws valid [] []
  | cons {i is d ds} (h : InputDecls ws valid i d) (hs : AllDecls ws valid is ds) :
      AllDecls ws valid (i :: is) (d ++ ds)

/-- The declarations of the argument `prefixes`. -/
def ArgDecls (ws : Char → Bool) (valid : Str → Bool) (ps : Option (List Input)) (ds : List (Str × Str)) : Prop :=
  (ps = none ∧ ds = []) ∨ ∃ l, ps = some l ∧ AllDecls ws valid l ds

/-- The IRI of the last declaration of a name. -/
def lastOf (al : Str) (ds : List (Str × Str)) : Option Str :=
  (ds.reverse.find? fun d => d.1 == al).map (·.2)

/-- What counts of the address or name of an endpoint: no white space around it, no slashes at its end,
no `http://` or `https://`, ASCII letters in lower case. -/
def IdOf (ws : Char → Bool) (s t : Str) : Prop :=
  ∃ (u v w : Str) (k : Nat), Trimmed ws s u ∧ u = v ++ List.replicate k '/' ∧ v.getLast? ≠ some '/' ∧
    (v = chars "http://" ++ w ∨ v = chars "https://" ++ w ∨
      (v = w ∧ (∀ x, v ≠ chars "http://" ++ x) ∧ ∀ x, v ≠ chars "https://" ++ x)) ∧
    t = w.map Char.toLower

/-- Two texts have in common what counts of them. -/
def SameId (ws : Char → Bool) (a b : Str) : Prop := ∃ t, IdOf ws a t ∧ IdOf ws b t

/-- The endpoint a text stands for: the one of this name; else the first whose name or address has in
common with the text what counts; else a new one at the address given. -/
def StandsFor (ws : Char → Bool) (valid reachable : Str → Bool) (known : List (Str × Endpoint)) (s : Str)
    (ep : Endpoint) : Prop :=
  (s, ep) ∈ known ∨
    ((∀ k ∈ known, k.1 ≠ s) ∧ ∃ (pre post : List (Str × Endpoint)) (n : Str), known = pre ++ (n, ep) :: post ∧
      (SameId ws n s ∨ SameId ws ep.iri s) ∧ ∀ k ∈ pre, ¬ SameId ws k.1 s ∧ ¬ SameId ws k.2.iri s) ∨
    ((∀ k ∈ known, k.1 ≠ s ∧ ¬ SameId ws k.1 s ∧ ¬ SameId ws k.2.iri s) ∧ valid s = true ∧
      reachable s = true ∧ ep = ⟨s, PrefixMap.new⟩)

/-! ## Data -/

section
variable {G P : Type}

/-- The base used. -/
inductive UsedBase (e : Env G P) : Option Str → Str → Prop
  | given {b} (h : e.validIri b = true) : UsedBase e (some b) b
  | config {b} (h : e.configBase = some b) : UsedBase e none b
  | cwd {b} (hc : e.configBase = none) (h : e.cwdBase = some b) : UsedBase e none b

/-- Data with nothing in them: an empty graph, the endpoints of the configuration, none in use. -/
def Fresh (e : Env G P) (r : Rdf G) : Prop :=
  (∀ c ∈ e.configEndpoints, e.reachable c.2.iri = true) ∧
    r = ⟨(e.emptyGraph, PrefixMap.new), e.configEndpoints, []⟩

/-- The data read into if data are merged: RDF data there are, else new ones. -/
def Start (e : Env G P) (st : Option (Data G P)) (r : Rdf G) : Prop :=
  st = some (.rdf r) ∨ ((∀ r', st ≠ some (.rdf r')) ∧ Fresh e r)

/-- What the reader of a format is given: Turtle must be text and gets the default prefixes first. -/
inductive Given (e : Env G P) : Format → Option Str → Option Str → Prop
  | turtle {t} : Given e .turtle (some t) (some (header e.ws e.defaults t .turtle ++ t))
  | other {f t} (h : f ≠ .turtle) : Given e f t t

/-- The inputs are opened and read one after another into a store. -/
inductive Reads (e : Env G P) (f : Format) (base : Str) (mode : Mode) :
    G × PrefixMap → List Input → G × PrefixMap → Prop
  | nil {s} : Reads e f base mode s [] s
  | cons {s i is text g s' s''} (ho : i.opened = some text) (hg : Given e f text g)
      (hr : e.read f base mode g s = (s', true)) (hs : Reads e f base mode s' is s'') :
      Reads e f base mode s (i :: is) s''

/-- The input at which reading stops: it cannot be opened or read, with the store left as it is, or the
reader reports an error, with the store it leaves. -/
inductive Stops (e : Env G P) (f : Format) (base : Str) (mode : Mode) (s : G × PrefixMap) (i : Input) :
    G × PrefixMap → Prop
  | closed (h : i.opened = none) : Stops e f base mode s i s
  | binary {text} (h : i.opened = some text) (hg : ∀ g, ¬ Given e f text g) : Stops e f base mode s i s
  | failed {text g s'} (h : i.opened = some text) (hg : Given e f text g)
      (hr : e.read f base mode g s = (s', false)) : Stops e f base mode s i s'

/-- Names of endpoints in the configuration are keys of a hash map. -/
def DistinctNames (e : Env G P) : Prop := (e.configEndpoints.map Prod.fst).Nodup

/-- The inputs are opened, are text and are property graphs. -/
def PgInputs (e : Env G P) (l : List Input) (qs : List P) : Prop :=
  List.Forall₂ (fun i q => ∃ t, i.opened = some (some t) ∧ e.parsePg t = some q) l qs

/-- The call asks for RDF inputs. -/
def Args.IsRdf (a : Args) (l : List Input) (f : Format) (mode : Mode) : Prop :=
  a.data = some l ∧ a.endpoint = none ∧ f ≠ .pg ∧ (a.format = some f ∨ a.format = none ∧ f = .turtle) ∧
    (a.mode = some mode ∨ a.mode = none ∧ mode = .strict)

/-- The call asks for property graphs. -/
def Args.IsPg (a : Args) (l : List Input) : Prop :=
  a.data = some l ∧ a.endpoint = none ∧ a.format = some .pg

/-- The data after the RDF inputs and prefix declarations: the graph is the one read, the prefixes are
those of the reader unless declared by the user, the endpoints stay. -/
def Loaded (r : Rdf G) (s : G × PrefixMap) (ds : List (Str × Str)) (st : Option (Data G P)) : Prop :=
  ∃ pm : PrefixMap, st = some (.rdf ⟨(s.1, pm), r.endpoints, r.used⟩) ∧
    ∀ al, pm.find al = (lastOf al ds).or (s.2.find al)

end

/-! ## Declarations put in front -/

/-- The keyword of a declaration. -/
def IsKeyword (d : Directive) (k : Str) : Prop :=
  match d with
  | .turtle => k = chars "@prefix"
  | .sparql => k.map Char.toLower = chars "prefix"

/-- At the start of a line, after white space, stand the keyword, white space, the name, white space or
none, and a colon. -/
def DeclaresAtLine (ws : Char → Bool) (d : Directive) (s name : Str) : Prop :=
  ∃ pre w1 k w2 w3 post : Str, s = pre ++ (w1 ++ (k ++ (w2 ++ (name ++ (w3 ++ ':' :: post))))) ∧
    (pre = [] ∨ pre.getLast? = some '\n') ∧ (∀ c ∈ w1, ws c = true) ∧ IsKeyword d k ∧ w2 ≠ [] ∧
    (∀ c ∈ w2, ws c = true) ∧ (∀ c ∈ name, ws c = false ∧ c ≠ ':') ∧ ∀ c ∈ w3, ws c = true

/-- White space is told apart from what a declaration is made of. -/
def SaneSpace (ws : Char → Bool) : Prop :=
  ws '\n' = true ∧ ∀ c ∈ chars "@prefixPREFIX:", ws c = false

/-- The declaration of a prefix. -/
def declLine (d : Directive) (al iri : Str) : Str :=
  (match d with | .turtle => chars "@prefix " | .sparql => chars "PREFIX ") ++ al ++ chars ": <" ++ iri ++
    (match d with | .turtle => chars "> .\n" | .sparql => chars ">\n")

/-! ## Sources -/

/-- The characters of the names of files that are looked for: ASCII letters and digits and `/`, `\\`,
`.`, `_`, `:`, `-`; the name may also start with a tilde. -/
def FileLike (s : Str) : Prop :=
  let ok := fun c : Char => c.isAlphanum = true ∨ c ∈ chars "/\\._:-"
  (∀ c ∈ s, ok c) ∨ ∃ t, s = '~' :: t ∧ ∀ c ∈ t, ok c

/-- The text starts as an address of the web. -/
def WebLike (s : Str) : Prop := ∃ t, s = chars "http://" ++ t ∨ s = chars "https://" ++ t

end Load
