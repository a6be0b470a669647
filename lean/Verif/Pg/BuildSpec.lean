import Verif.Pg.Build
import Verif.Pg.Spec

/-!
# Specification: what the texts of schemas, graphs and type maps say

The reading is given on the syntax trees, without building anything: values of tokens, conditions as propositions about
a value, types as sets of sets of values, and descriptions of nodes by the statements of the text.
-/

namespace Pg

/-! ## Tokens -/

/-- The value of a text of decimal digits, by position. -/
def decimal : List Char → Nat
  | [] => 0
  | c :: cs => (c.toNat - '0'.toNat) * 10 ^ cs.length + decimal cs

/-- What an escaped text stands for: `\"` is a quote. -/
def unescape : List Char → List Char
  | [] => []
  | '\\' :: '"' :: cs => '"' :: unescape cs
  | c :: cs => c :: unescape cs

/-- The text between the quotes of a token. -/
def Quoted (token : String) (body : List Char) : Prop := token.toList = '"' :: (body ++ ['"'])

/-- The value that a token stands for. -/
inductive Denotes (D : Dates) : SrcValue → Value → Prop
  | str {t : String} {body : List Char} : Quoted t body → Denotes D (.str t) (.string (String.ofList (unescape body)))
  | num {t : String} : t.toList ≠ [] → (∀ c ∈ t.toList, c.isDigit = true) →
      Denotes D (.num t) (.integer (decimal t.toList))
  | date {t : String} {body : List Char} {d : Int} : Quoted t body → D.parse (String.ofList body) = some d →
      Denotes D (.date t) (.date d)
  | bool (b : Bool) : Denotes D (.bool b) (.bool b)

/-! ## Conditions and types -/

/-- The reading of a condition as a proposition about a value. -/
def SrcMeets (X : Ext) (D : Dates) : SrcCond → Value → Prop
  | .tt, _ => True
  | .ff, _ => False
  | .and a b, v => SrcMeets X D a v ∧ SrcMeets X D b v
  | .or a b, v => SrcMeets X D a v ∨ SrcMeets X D b v
  | .not a, v => ¬ SrcMeets X D a v
  | .paren a, v => SrcMeets X D a v
  | .gt w, v => ∃ x, Denotes D w x ∧ Ordered (· > ·) v x
  | .ge w, v => ∃ x, Denotes D w x ∧ Ordered (· ≥ ·) v x
  | .lt w, v => ∃ x, Denotes D w x ∧ Ordered (· < ·) v x
  | .le w, v => ∃ x, Denotes D w x ∧ Ordered (· ≤ ·) v x
  | .eq w, v => Denotes D w v
  | .regex t, v => ∃ body s, Quoted t body ∧ v = .string s ∧ X.regex (String.ofList body) s = some true

/-- Every part of a condition can be asked of a value. -/
def SrcApplicable (X : Ext) (D : Dates) : SrcCond → Value → Prop
  | .tt, _ | .ff, _ | .eq _, _ => True
  | .and a b, v | .or a b, v => SrcApplicable X D a v ∧ SrcApplicable X D b v
  | .not a, v | .paren a, v => SrcApplicable X D a v
  | .gt w, v | .ge w, v | .lt w, v | .le w, v => ∃ x, Denotes D w x ∧ Comparable v x
  | .regex t, v => ∃ body s, Quoted t body ∧ v = .string s ∧ X.regex (String.ofList body) s ≠ none

/-- A condition, if there is one, holds of every value and every part of it could be asked. -/
def Checked (X : Ext) (D : Dates) (c : Option SrcCond) (vs : Finset Value) : Prop :=
  ∀ e, c = some e → ∀ v ∈ vs, SrcApplicable X D e v ∧ SrcMeets X D e v

/-- A count lies within a cardinality of the text: without one it is one. -/
def Counted : Option SrcCard → Nat → Prop
  | none, n => n = 1
  | some .optional, n => n ≤ 1
  | some .oneOrMore, n => 1 ≤ n
  | some .zeroOrMore, _ => True
  | some (.range lo .star), n => decimal lo.toList ≤ n
  | some (.range lo (.num hi)), n => decimal lo.toList ≤ n ∧ n ≤ decimal hi.toList

/-- A value is of a kind. -/
def OfKind : SrcKind → Value → Prop
  | .string, v => ∃ s, v = .string s
  | .integer, v => ∃ i, v = .integer i
  | .date, v => ∃ d, v = .date d
  | .bool, v => ∃ b, v = .bool b

/-- The sets of values of a simple type. -/
def SaysSimple (X : Ext) (D : Dates) : SrcSimple → Finset Value → Prop
  | .kind k c e, vs => Counted c vs.card ∧ (∀ v ∈ vs, OfKind k v) ∧ Checked X D e vs
  | .any e, vs => Checked X D e vs
  | .check e, vs => Checked X D (some e) vs

/-- The sets of values of types joined by `&` and `|`, from left to right, after a type with the values `P`. -/
def SaysMore (X : Ext) (D : Dates) : SrcMore → (Finset Value → Prop) → Finset Value → Prop
  | .nil, P, vs => P vs
  | .inter t more, P, vs => SaysMore X D more (fun ws => P ws ∧ SaysSimple X D t ws) vs
  | .union t more, P, vs => SaysMore X D more (fun ws => P ws ∨ SaysSimple X D t ws) vs

/-- The sets of values of a type. -/
def SaysType (X : Ext) (D : Dates) (t : SrcType) (vs : Finset Value) : Prop :=
  SaysMore X D t.more (SaysSimple X D t.first) vs

/-- The properties of the text allow a record to have exactly the keys `K` with values of the types. -/
def SaysProps (X : Ext) (D : Dates) (r : Record) : SrcProps → Finset String → Prop
  | .paren a, K => SaysProps X D r a K
  | .eachOf a b, K => ∃ K1 K2, K = K1 ∪ K2 ∧ SaysProps X D r a K1 ∧ SaysProps X D r b K2
  | .oneOf a b, K => SaysProps X D r a K ∨ SaysProps X D r b K
  | .base o k t, K => (K = {k} ∧ ∃ vs, r.lookup k = some vs ∧ SaysType X D t vs) ∨ (o = true ∧ K = ∅)

/-! ## Schemas -/

/-- The last statement of the text that creates a node type of this name. -/
def LastNode (p : List Stmt) (name : String) (spec : SrcSpec) : Prop :=
  ∃ pre post, p = pre ++ .node (some name) spec :: post ∧ ∀ spec', Stmt.node (some name) spec' ∉ post

/-- A node with labels `L`, and properties allowing the keys `K` in the record `r`, is described by the text. -/
inductive Says (X : Ext) (D : Dates) (p : List Stmt) (r : Record) : SrcSpec → LabelSet → Finset String → Prop
  | nothing : Says X D p r ⟨none, none⟩ ∅ ∅
  | label (l : String) : Says X D p r ⟨some (.label l), none⟩ {l} ∅
  | typeName {name : String} {spec : SrcSpec} {L : LabelSet} {K : Finset String} :
    LastNode p name spec → Says X D p r spec L K → Says X D p r ⟨some (.typeName name), none⟩ L K
  | paren {a : SrcLabels} {L : LabelSet} {K : Finset String} :
    Says X D p r ⟨some a, none⟩ L K → Says X D p r ⟨some (.paren a), none⟩ L K
  | square {a : SrcLabels} {L : LabelSet} {K : Finset String} :
    Says X D p r ⟨some a, none⟩ L K → Says X D p r ⟨some (.square a), none⟩ L K
  | conj {a b : SrcLabels} {L1 L2 : LabelSet} {K1 K2 : Finset String} :
    Says X D p r ⟨some a, none⟩ L1 K1 → Says X D p r ⟨some b, none⟩ L2 K2 →
      Says X D p r ⟨some (.conj a b), none⟩ (L1 ∪ L2) (K1 ∪ K2)
  | left {a b : SrcLabels} {L : LabelSet} {K : Finset String} :
    Says X D p r ⟨some a, none⟩ L K → Says X D p r ⟨some (.disj a b), none⟩ L K
  | right {a b : SrcLabels} {L : LabelSet} {K : Finset String} :
    Says X D p r ⟨some b, none⟩ L K → Says X D p r ⟨some (.disj a b), none⟩ L K
  | props {l : Option SrcLabels} {ps : SrcProps} {L : LabelSet} {K1 K2 : Finset String} :
    Says X D p r ⟨l, none⟩ L K1 → SaysProps X D r ps K2 → Says X D p r ⟨l, some ps⟩ L (K1 ∪ K2)

/-- Following the type names of a specification ends, at names that the text declares. -/
inductive Grounded (p : List Stmt) : SrcSpec → Prop
  | nothing (ps : Option SrcProps) : Grounded p ⟨none, ps⟩
  | label (l : String) (ps : Option SrcProps) : Grounded p ⟨some (.label l), ps⟩
  | typeName {name : String} {spec : SrcSpec} (ps : Option SrcProps) :
    LastNode p name spec → Grounded p spec → Grounded p ⟨some (.typeName name), ps⟩
  | paren {a : SrcLabels} (ps : Option SrcProps) : Grounded p ⟨some a, none⟩ → Grounded p ⟨some (.paren a), ps⟩
  | square {a : SrcLabels} (ps : Option SrcProps) : Grounded p ⟨some a, none⟩ → Grounded p ⟨some (.square a), ps⟩
  | conj {a b : SrcLabels} (ps : Option SrcProps) :
    Grounded p ⟨some a, none⟩ → Grounded p ⟨some b, none⟩ → Grounded p ⟨some (.conj a b), ps⟩
  | disj {a b : SrcLabels} (ps : Option SrcProps) :
    Grounded p ⟨some a, none⟩ → Grounded p ⟨some b, none⟩ → Grounded p ⟨some (.disj a b), ps⟩

/-- `|` does not occur between labels. -/
def SrcLabels.NoBar : SrcLabels → Prop
  | .disj _ _ => False
  | .conj a b => a.NoBar ∧ b.NoBar
  | .paren a | .square a => a.NoBar
  | _ => True

/-! ## What the lexer guarantees, and the conditions of the theorems -/

/-- A quoted token. -/
def IsQuoted (t : String) : Prop := ∃ body, Quoted t body

/-- A quoted token without escaped quotes. -/
def IsPlain (t : String) : Prop := ∃ body, Quoted t body ∧ '"' ∉ body

/-- A number token: `\d+`, so that there is no sign. -/
def IsNumber (t : String) : Prop := ∀ c ∈ t.toList, c ≠ '+' ∧ c ≠ '-'

/-- A name token: `[a-zA-Z_][0-9a-zA-Z_]*`, so that it does not begin with a digit. -/
def IsIdent (t : String) : Prop := ∃ c cs, t.toList = c :: cs ∧ c.isDigit = false

/-- The tokens of a value are as the lexer makes them, and no quote is escaped. -/
def SrcValue.Plain : SrcValue → Prop
  | .str t => IsPlain t
  | .date t => IsQuoted t
  | .num t => IsNumber t
  | .bool _ => True

/-- The same for a condition. -/
def SrcCond.Plain : SrcCond → Prop
  | .tt | .ff => True
  | .gt v | .ge v | .lt v | .le v | .eq v => v.Plain
  | .regex t => IsQuoted t
  | .and a b | .or a b => a.Plain ∧ b.Plain
  | .not a | .paren a => a.Plain

/-- The same for a cardinality. -/
def SrcCard.Plain : SrcCard → Prop
  | .range lo (.num hi) => IsNumber lo ∧ IsNumber hi
  | .range lo .star => IsNumber lo
  | _ => True

/-- The same for a simple type. -/
def SrcSimple.Plain : SrcSimple → Prop
  | .kind _ c e => (∀ x, c = some x → x.Plain) ∧ ∀ x, e = some x → x.Plain
  | .any e => ∀ x, e = some x → x.Plain
  | .check e => e.Plain

/-- The same for a type, and it has at most two parts. -/
def SrcType.Plain (t : SrcType) : Prop :=
  t.first.Plain ∧
    (t.more = .nil ∨ ∃ s : SrcSimple, s.Plain ∧ (t.more = .inter s .nil ∨ t.more = .union s .nil))

/-- The same for properties. -/
def SrcProps.Plain : SrcProps → Prop
  | .eachOf a b | .oneOf a b => a.Plain ∧ b.Plain
  | .paren a => a.Plain
  | .base _ _ t => t.Plain

/-- The type names among labels are as the lexer makes them. -/
def SrcLabels.Named : SrcLabels → Prop
  | .conj a b | .disj a b => a.Named ∧ b.Named
  | .paren a | .square a => a.Named
  | .label _ => True
  | .typeName n => IsIdent n

/-- The same for labels and properties, and there is a label. -/
def SrcSpec.Plain (s : SrcSpec) : Prop :=
  (∃ l, s.labels = some l ∧ l.Named) ∧ ∀ ps, s.props = some ps → ps.Plain

/-- Every statement of the text is plain, with names as the lexer makes them. -/
def PlainText (p : List Stmt) : Prop :=
  ∀ st ∈ p, match st with
    | .node name spec => (∀ n, name = some n → IsIdent n) ∧ spec.Plain
    | .edge name s e t => (∀ n, name = some n → IsIdent n) ∧ s.Plain ∧ e.Plain ∧ t.Plain
    | .graph => True

/-- The names of the edge types that have one, in the order of the text. -/
def edgeTypeNames : List Stmt → List String
  | [] => []
  | .edge (some n) _ _ _ :: rest => n :: edgeTypeNames rest
  | _ :: rest => edgeTypeNames rest

/-! ## Texts that can be read -/

/-- A number of at most `hi` written in digits. -/
def Digits (hi : Nat) (t : String) : Prop :=
  t.toList ≠ [] ∧ (∀ c ∈ t.toList, c.isDigit = true) ∧ decimal t.toList ≤ hi

/-- A value of the text exists: numbers are 32 bit integers and dates are dates. -/
def SrcValue.Readable (D : Dates) : SrcValue → Prop
  | .num t => Digits (2 ^ 31 - 1) t
  | .date t => ∃ body d, Quoted t body ∧ D.parse (String.ofList body) = some d
  | .str _ | .bool _ => True

/-- The same for a condition. -/
def SrcCond.Readable (D : Dates) : SrcCond → Prop
  | .tt | .ff | .regex _ => True
  | .gt v | .ge v | .lt v | .le v | .eq v => v.Readable D
  | .and a b | .or a b => a.Readable D ∧ b.Readable D
  | .not a | .paren a => a.Readable D

/-- The same for a cardinality, whose numbers are 64 bit numbers. -/
def SrcCard.Readable : SrcCard → Prop
  | .range lo (.num hi) => Digits (2 ^ 64 - 1) lo ∧ Digits (2 ^ 64 - 1) hi
  | .range lo .star => Digits (2 ^ 64 - 1) lo
  | _ => True

/-- The same for a simple type. -/
def SrcSimple.Readable (D : Dates) : SrcSimple → Prop
  | .kind _ c e => (∀ x, c = some x → x.Readable) ∧ ∀ x, e = some x → x.Readable D
  | .any e => ∀ x, e = some x → x.Readable D
  | .check e => e.Readable D

/-- The same for what follows a type. -/
def SrcMore.Readable (D : Dates) : SrcMore → Prop
  | .nil => True
  | .inter t more | .union t more => t.Readable D ∧ more.Readable D

/-- The same for properties. -/
def SrcProps.Readable (D : Dates) : SrcProps → Prop
  | .eachOf a b | .oneOf a b => a.Readable D ∧ b.Readable D
  | .paren a => a.Readable D
  | .base _ _ t => t.first.Readable D ∧ t.more.Readable D

/-- The same for labels and properties. -/
def SrcSpec.Readable (D : Dates) (s : SrcSpec) : Prop := ∀ ps, s.props = some ps → ps.Readable D

/-- The same for a statement. -/
def Stmt.Readable (D : Dates) : Stmt → Prop
  | .node _ s => s.Readable D
  | .edge _ s e t => s.Readable D ∧ e.Readable D ∧ t.Readable D
  | .graph => False

end Pg
