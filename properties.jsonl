{"id": "C01", "title": "Derivative matching decides the bag language", "statement": "Matching a bag against a regular bag expression with the derivative algorithm in closed mode succeeds exactly when the bag belongs to the expression's declared language (symbol counts within cardinality; interleaving for And; choice for Or; sums of one or more/zero or more/m..n members for Plus/Star/Repeat), for every well-formed expression (each Repeat has min <= max and max >= 1, no empty Or).", "quantifier": "every well-formed expression of any depth, every finite bag, every order in which the bag is iterated", "why_tests_cant": "the expression and bag spaces are infinite and derivatives grow; samples cannot show no bag is wrongly accepted or rejected", "anchors": ["rbe/src/rbe.rs: Rbe::match_bag_deriv, deriv_bag, deriv, deriv_and, mandatory_values, mk_range, mk_and, mk_or", "rbe/src/deriv_n.rs: deriv_n"]}
{"id": "C02", "title": "Derivative matching is correct for degenerate group cardinalities too", "statement": "The same equivalence holds for every expression a caller can build, including groups with cardinality {0,0} or min > max and empty choices.", "quantifier": "every expression constructible through the public API, every bag", "why_tests_cant": "the failing shapes are corner cases nested anywhere inside arbitrary expressions", "anchors": ["rbe/src/rbe.rs: Rbe::deriv (Repeat arms), mandatory_values"]}
{"id": "C03", "title": "Bag iteration order is irrelevant", "statement": "In closed matching the verdict of the derivative algorithm does not depend on the (hash dependent) order in which the elements of the bag are enumerated.", "quantifier": "every expression, every bag, every pair of enumeration orders", "why_tests_cant": "the order comes from a randomly seeded hash table; tests see one order per run", "anchors": ["rbe/src/rbe.rs: Rbe::deriv_bag", "rbe/src/bag.rs: Bag::iter"]}
{"id": "C04", "title": "Interval matching decides the bag language on single-occurrence expressions", "statement": "For an expression in which no symbol occurs twice and which has no m..n repeated group, interval matching in closed mode succeeds exactly when the bag is in the declared language.", "quantifier": "every single-occurrence Repeat-free expression, every bag, both directions", "why_tests_cant": "soundness and completeness over infinitely many expressions and counts", "anchors": ["rbe/src/rbe.rs: Rbe::interval", "rbe/src/rbe_struct.rs: RbeStruct::match_bag_interval", "rbe/src/interval.rs: Interval", "rbe/src/max.rs: div_up, div_down"]}
{"id": "C05", "title": "Interval matching never accepts a bag outside the language", "statement": "Whenever interval matching accepts a bag for a single-occurrence expression (repeated groups m..n allowed anywhere), the bag is in the declared language.", "quantifier": "every single-occurrence expression with well-formed repeats, every bag", "why_tests_cant": "a false acceptance may need large counts in deeply nested groups", "anchors": ["rbe/src/rbe.rs: Rbe::interval", "rbe/src/rbe_struct.rs: RbeStruct::match_bag_interval"]}
{"id": "C06", "title": "Interval matching never rejects a member of the language", "statement": "Interval matching accepts every bag of the declared language for every single-occurrence expression, including repeated groups nested inside Star, Plus or other repeated groups.", "quantifier": "every single-occurrence expression, every bag", "why_tests_cant": "needs a search over nested repeats and multiplicities", "anchors": ["rbe/src/rbe.rs: Rbe::interval (Repeat arm)"]}
{"id": "C07", "title": "The two matching algorithms agree", "statement": "On every expression without nested repeated groups, choosing the derivative or the interval algorithm gives the same verdict in closed mode.", "quantifier": "every well-formed expression without a Repeat under Star/Plus/Repeat, every bag", "why_tests_cant": "an equivalence between two independent algorithms over an infinite domain", "anchors": ["rbe/src/rbe_struct.rs: RbeStruct::match_bag, match_bag_deriv, match_bag_interval"]}
{"id": "C08", "title": "The single-occurrence flag is truthful", "statement": "For every expression built by the struct constructors (or converted from a plain expression), the published symbol set is exactly the set of symbols of the expression and the has-repeats flag is false exactly when no symbol occurs twice.", "quantifier": "every construction history (any nesting of constructors)", "why_tests_cant": "an invariant of all constructor compositions", "anchors": ["rbe/src/rbe_struct.rs: RbeStruct::{symbol,or,and,opt,plus,star,repeat}, has_symbol_overlap, From<Rbe>"]}
{"id": "C09", "title": "Nullability is membership of the empty bag", "statement": "An expression is reported nullable exactly when the empty bag is in its declared language, and matching the empty bag gives the same answer.", "quantifier": "every well-formed expression", "why_tests_cant": "structural recursion over all expressions", "anchors": ["rbe/src/rbe.rs: Rbe::mandatory_values, is_nullable", "rbe/src/rbe_struct.rs: RbeStruct::nullable", "rbe/src/rbe_cond.rs: RbeCond::nullable"]}
{"id": "C10", "title": "Feasibility refutation is definitive", "statement": "If the feasibility test answers false for bounds lo and hi, no bag c with lo <= c <= hi pointwise is in the language: exact when no symbol occurs twice, and for arbitrary expressions when lo is zero.", "quantifier": "every expression, all bounds lo and hi, every bag between them", "why_tests_cant": "the claim quantifies over all completions of a partial assignment", "anchors": ["rbe/src/feasibility.rs: Rbe::feasible, Feasibility::{zero,fx,fi,once}", "docs/src/internals/feasibility-model.md"]}
{"id": "C11", "title": "Neighbourhood pre-check never hides a match", "statement": "If the neighbourhood feasibility pre-check of a table answers false, then matching that neighbourhood (or any sub-collection of it) yields no successful candidate.", "quantifier": "every table, every list of key/value/context triples, every sublist", "why_tests_cant": "quantifies over all value assignments", "anchors": ["rbe/src/rbe_table.rs: RbeTable::feasible_neighs, matches"]}
{"id": "C12", "title": "Table matching finds exactly the valid assignments", "statement": "Matching a neighbourhood yields a success exactly when every value can be assigned to a component registered for its key, whose condition it satisfies, so that the bag of components is accepted by the expression; and each success carries exactly the pending references produced by the conditions of such an assignment.", "quantifier": "every table built with the public API, every neighbourhood whose values all have a registered key", "why_tests_cant": "a cartesian product over candidates: exponential in the data", "anchors": ["rbe/src/rbe_table.rs: RbeTable::matches, IterCartesianProduct::next", "rbe/src/pending.rs: Pending::merge", "rbe/src/match_cond.rs: MatchCond::matches"]}
{"id": "C13", "title": "A failing item ends matching only when nothing could succeed", "statement": "When table matching yields an error item, no later item of the same iteration is a success, so stopping at the first error item (as the shape checker does) never loses a match.", "quantifier": "every table, every neighbourhood", "why_tests_cant": "depends on which keys have one or several components over all inputs", "anchors": ["rbe/src/rbe_table.rs: RbeTable::matches, IterCartesianProduct::next", "shex_validation/src/engine.rs: check_expr_neigh"]}
{"id": "C14", "title": "Open matching ignores foreign symbols", "statement": "In open mode, adding to a bag any number of symbols that do not occur in the expression never changes the verdict of derivative matching.", "quantifier": "every expression, every bag, every multiset of foreign symbols", "why_tests_cant": "all interleavings of foreign and own symbols", "anchors": ["rbe/src/rbe.rs: Rbe::deriv"]}
{"id": "C15", "title": "Cardinality diagnoses are true", "statement": "Every cardinality violation named in a failed interval match is a real one: the reported count is the number of occurrences of the symbol in the bag and lies outside the reported declared cardinality.", "quantifier": "every expression, every rejected bag", "why_tests_cant": "ranges over all failures", "anchors": ["rbe/src/rbe_struct.rs: RbeStruct::diagnose_failure", "rbe/src/rbe.rs: symbol_cardinalities"]}
{"id": "C16", "title": "Conditioned derivative of Star keeps repeating", "statement": "The derivative of a starred conditioned expression with respect to an accepted key/value still accepts any further number of repetitions.", "quantifier": "every starred expression, every sequence of values", "why_tests_cant": "needs sequences of arbitrary length", "anchors": ["rbe/src/rbe_cond.rs: RbeCond::deriv (Star arm)"]}
{"id": "C17", "title": "k-partition enumeration is exact", "statement": "The k-partition iterator emits every assignment of the placeable items to k groups in which each group satisfies its predicate, emits nothing else, and emits no assignment twice; items no group accepts are left out.", "quantifier": "all item lists, all k >= 1, all predicates", "why_tests_cant": "k^n assignments; the claim is about all of them", "anchors": ["shex_validation/src/k_partitions.rs: KPartitionIteratorMultiPredicate"]}
{"id": "C18", "title": "Class-based partition enumeration loses no accepted partition", "statement": "The class-based iterator emits every assignment of neighbours to eligible buckets in which each bucket's expressions accept the bucket, every emitted partition places each neighbour with an eligible bucket exactly once in an eligible bucket, and the search terminates.", "quantifier": "all neighbourhoods, all bucket tables", "why_tests_cant": "combinatorial search with pruning; a lost branch shows only on special inputs", "anchors": ["shex_validation/src/class_partitions.rs: ClassPartitionIterator::{new,next,bucket_pool,feasible_now,first_composition,next_composition,init_perms,advance_perms,current_partition}, next_permutation"]}
{"id": "C19", "title": "Permutation stepping visits every arrangement once", "statement": "Starting from the sorted arrangement, repeatedly stepping to the next permutation visits every distinct arrangement of the multiset exactly once in increasing order and then stops.", "quantifier": "all multisets of bucket indexes", "why_tests_cant": "factorially many arrangements", "anchors": ["shex_validation/src/class_partitions.rs: next_permutation"]}
{"id": "C20", "title": "Recursive ShEx validation computes the greatest typing", "statement": "For schemas without negation, proving that a node conforms to a shape succeeds exactly when the pair belongs to the greatest typing closed under the shape definitions, whatever the cyclic references between shapes and cycles in the data.", "quantifier": "every finite set of node/shape pairs, every monotone shape definition that asks only about the references it declares, every order of exploring references; at the level of schemas, every schema whose value expressions are either reference-free or a plain reference", "why_tests_cant": "coinductive meaning over arbitrary cyclic data", "anchors": ["shex_validation/src/engine.rs: Engine::prove, dep, check_node_idx"]}
{"id": "C21", "title": "Memoised validation answers do not depend on history", "statement": "Answers cached while proving earlier pairs never change the verdict of a later pair: any sequence of queries gives the same verdicts as asking each query alone on a fresh engine.", "quantifier": "every sequence of queries, every schema without negation", "why_tests_cant": "the cache couples all earlier queries to later ones", "anchors": ["shex_validation/src/engine.rs: Engine::prove (typing cache, hyp_touched)"]}
{"id": "C22", "title": "Validation terminates", "statement": "Proving any node/shape pair terminates, with recursion depth bounded by the number of node/shape pairs.", "quantifier": "every finite data graph and schema, including cyclic ones", "why_tests_cant": "non-termination cannot be observed by a finite test", "anchors": ["shex_validation/src/engine.rs: Engine::prove"]}
{"id": "C23", "title": "Boolean shape expressions mean what they say", "statement": "AND holds exactly when all operands hold, OR exactly when some operand holds, NOT exactly when the operand does not hold, relative to the current typing of references, for every nesting.", "quantifier": "every shape expression tree, every typing, every node", "why_tests_cant": "all nestings of the connectives", "anchors": ["shex_validation/src/engine.rs: check_node_shape_expr, check_node_ref"]}
{"id": "C24", "title": "Schemas with negation through a cycle are rejected", "statement": "A schema in which a shape depends on itself through a negated reference is reported as having a negative cycle, and schemas without such a dependency are not.", "quantifier": "every reference graph between shapes", "why_tests_cant": "all cycles of all lengths and all orders of edge insertion", "anchors": ["shex_ast/src/ir/dependency_graph.rs: DependencyGraph::{add_edge,neg_cycles}", "shex_ast/src/ir/shape_expr.rs: add_edges"]}
{"id": "C25", "title": "Closed shapes and EXTRA", "statement": "A closed shape conforms only if every outgoing arc whose predicate the shape does not mention is absent; values of EXTRA predicates that match no constraint for that predicate are tolerated, and a value that matches some constraint is never discarded.", "quantifier": "every shape, every neighbourhood", "why_tests_cant": "all neighbourhoods with arbitrary many extra arcs", "anchors": ["shex_validation/src/engine.rs: check_node_shape, neighs, matches_any_leaf"]}
{"id": "C26", "title": "Every combination of parent alternatives is tried", "statement": "Checking a shape that extends parents with several alternatives tries every combination of one alternative per parent before failing.", "quantifier": "any number of parents with any number of alternatives", "why_tests_cant": "the odometer runs over a product of unbounded size", "anchors": ["shex_validation/src/engine.rs: check_node_shape_extends_selections", "shex_ast/src/ir/extend_alternative.rs"]}
{"id": "C27", "title": "Prefix compaction can be undone", "statement": "Resolving the qualified form produced for an IRI gives back the same IRI.", "quantifier": "every prefix map, every IRI", "why_tests_cant": "all IRIs and all prefix declarations", "anchors": ["prefixmap/src/prefix_map.rs: PrefixMap::qualify, resolve, resolve_prefix_local", "rudof_iri/src/iri/iris.rs: IriS::extend"]}
{"id": "C28", "title": "Compaction uses the longest declared namespace", "statement": "When an IRI starts with several declared namespaces, the qualified form uses a longest one; when none matches the full IRI is shown.", "quantifier": "every prefix map, every IRI", "why_tests_cant": "all sets of overlapping namespaces", "anchors": ["prefixmap/src/prefix_map.rs: PrefixMap::longest_prefix_match, qualify, qualify_optional"]}
{"id": "C29", "title": "Prefix map updates are last-writer-wins and merging is right biased", "statement": "After any sequence of declarations and removals, looking up a prefix returns the namespace of the last declaration not followed by a removal; after merging, the merged-in map's declarations win and all others are kept; equality ignores declaration order.", "quantifier": "every sequence of operations", "why_tests_cant": "all histories", "anchors": ["prefixmap/src/prefix_map.rs: PrefixMap::{add_prefix,remove_prefix,merge,find,eq}"]}
{"id": "C30", "title": "IRI registry indices are stable", "statement": "Registering the same IRI twice gives the same index, different IRIs get different indices, and an index once handed out resolves to the same IRI after any later registrations.", "quantifier": "every sequence of registrations", "why_tests_cant": "all histories", "anchors": ["rudof_iri/src/registry/simple.rs", "rudof_iri/src/registry/parallel.rs"]}
{"id": "C31", "title": "Value-set stems and exclusions", "statement": "A stem range accepts a term exactly when the term has the stem and matches none of the exclusions; a value set accepts exactly the terms accepted by some member.", "quantifier": "every value set, every term", "why_tests_cant": "all combinations of stems, wildcards and exclusions", "anchors": ["shex_ast/src/ir/value_set_value.rs", "shex_ast/src/ir/value_set.rs", "shex_ast/src/ir/exclusion.rs"]}
{"id": "C32", "title": "Language stems match whole subtags", "statement": "A language stem accepts a tag exactly when the stem's subtags are a case-insensitive prefix of the tag's subtags, so en accepts en-GB but not english.", "quantifier": "every pair of language tags", "why_tests_cant": "all tags", "anchors": ["shex_ast/src/ir/value_set_value.rs: lang_stem_matches"]}
{"id": "C33", "title": "Property paths follow their relational meaning", "statement": "The value nodes of a property path from a node are exactly the nodes related to it by the path's relational meaning (composition, union, converse, reflexive/transitive closure).", "quantifier": "every path expression, every finite graph, every start node", "why_tests_cant": "cyclic graphs of any size and nested closures", "anchors": ["rudof_rdf/src/rdf_core/neighs_rdf.rs: objects_for_shacl_path"]}
{"id": "C34", "title": "Path evaluation terminates on cyclic data", "statement": "Evaluating zero-or-more and one-or-more paths terminates on every finite graph, cyclic or not.", "quantifier": "every finite graph", "why_tests_cant": "non-termination is not testable", "anchors": ["rudof_rdf/src/rdf_core/neighs_rdf.rs: objects_for_shacl_path"]}
{"id": "C35", "title": "Shapes are validated after the shapes they depend on", "statement": "The level computation puts every shape strictly after all shapes it refers to, lists each shape at most once, and omits exactly the shapes that can reach a reference cycle.", "quantifier": "every finite reference graph", "why_tests_cant": "all graphs", "anchors": ["shacl/src/ir/dg/mod.rs: DependencyGraph::topological_levels", "shacl/src/ir/schema.rs: shapes_with_targets_by_level"]}
{"id": "C36", "title": "Cached SHACL results equal freshly computed ones", "statement": "Validating a shape on a node twice, directly or through other shapes, reports the same results both times.", "quantifier": "every schema, every data graph, every earlier history of validations", "why_tests_cant": "the cache is filled by arbitrary earlier validations", "anchors": ["shacl/src/validator/engine/validate.rs: IRShape::validate", "shacl/src/validator/cache"]}
{"id": "C37", "title": "Parallel validation is schedule independent", "statement": "Whatever the interleaving of the worker threads that share the validation cache, the same set of results is reported.", "quantifier": "every schedule of every number of workers", "why_tests_cant": "schedules cannot be enumerated", "anchors": ["shacl/src/validator/processor/mod.rs", "shacl/src/validator/cache/shared.rs", "shacl/src/validator/engine/validate.rs"]}
{"id": "C38", "title": "Logical SHACL constraints count conforming shapes correctly", "statement": "sh:and reports exactly the value nodes failing some listed shape, sh:or those conforming to none, sh:not those conforming, sh:xone those whose number of conforming shapes is not one; qualified counts report exactly when the number of conforming values is out of bounds.", "quantifier": "every data graph, every list of shapes, every value node set, after every history of validations, in non-recursive schemas whose property shapes have no property shapes nested in them; conforming means that validating the shape on the node alone reports nothing", "why_tests_cant": "all combinations", "anchors": ["shacl/src/validator/constraints/core/logical/{and,or,not,xone}.rs", "shacl/src/validator/constraints/core/shape_based/qualified_value_shape.rs"]}
{"id": "C39", "title": "Validation report equality is an equivalence", "statement": "Comparing two reports for equality is reflexive, symmetric and transitive.", "quantifier": "all pairs and triples of reports", "why_tests_cant": "all multisets of results", "anchors": ["shacl/src/validator/report/mod.rs: PartialEq for ValidationReport"]}
{"id": "C40", "title": "Class targets include instances of subclasses", "statement": "A class target selects exactly the nodes whose type is the class or one of its transitive subclasses, with or without the class index.", "quantifier": "every data graph", "why_tests_cant": "all subclass chains", "anchors": ["shacl/src/validator/engine/native.rs: target_class, implicit_target_class", "shacl/src/validator/index/class.rs"]}
{"id": "C41", "title": "sh:closed and pair constraints", "statement": "sh:closed reports exactly the outgoing arcs whose predicate is not allowed; sh:equals, sh:disjoint, sh:lessThan report exactly the offending value pairs.", "quantifier": "every graph, every shape", "why_tests_cant": "all value sets", "anchors": ["shacl/src/validator/constraints/core/other/closed.rs", "shacl/src/validator/constraints/core/property_pair"]}
{"id": "C42", "title": "Record types accept exactly the conforming records", "statement": "A closed record type accepts a record exactly when it has the declared keys and no others and every value conforms to its declared type; an open one tolerates other keys.", "quantifier": "every record type, every record", "why_tests_cant": "all key sets and values", "anchors": ["pgschema/src/record_type.rs: RecordType::conforms", "pgschema/src/value_type.rs"]}
{"id": "C43", "title": "OPEN content types accept extra properties", "statement": "A node whose label and declared properties conform to a type declared OPEN conforms even if it carries additional properties.", "quantifier": "every open type, every node", "why_tests_cant": "all extra properties", "anchors": ["pgschema/src/label_property_spec.rs", "pgschema/src/formal_base_type.rs: FormalBaseType::combine", "pgschema/src/record_type.rs: RecordType::combine"]}
{"id": "C44", "title": "Union types keep label and content together", "statement": "A node conforms to a union of two types exactly when it conforms to one of them.", "quantifier": "every pair of types, every node", "why_tests_cant": "all cross combinations of labels and contents", "anchors": ["pgschema/src/formal_base_type.rs: FormalBaseType::{union,conforms}"]}
{"id": "C45", "title": "A type map is valid exactly when every association conforms", "statement": "Validating a type map reports one verdict per association, in order, and the whole is valid exactly when each verdict is positive.", "quantifier": "every property graph, schema and type map", "why_tests_cant": "all lists of associations", "anchors": ["pgschema/src/type_map.rs: TypeMap::validate", "pgschema/src/validation_result.rs"]}
{"id": "C46", "title": "Cardinality intersection is set intersection", "statement": "A count is within the intersection of two property cardinalities exactly when it is within both.", "quantifier": "all pairs of cardinalities, all counts", "why_tests_cant": "infinitely many counts", "anchors": ["pgschema/src/card.rs: Card::{intersection,contains}, Max::min"]}
{"id": "C47", "title": "Numeric literal equality is an equivalence compatible with hashing", "statement": "Equality of numeric literals across datatypes is reflexive, symmetric and transitive, and equal literals hash equally.", "quantifier": "all numeric literals of all datatypes", "why_tests_cant": "all pairs and triples of values", "anchors": ["rudof_rdf/src/rdf_core/term/literal/numeric_literal.rs: PartialEq, Hash, to_decimal"]}
{"id": "C48", "title": "Numeric comparison is a consistent order", "statement": "less-than on numeric literals is irreflexive and transitive, never holds in both directions, and agrees with the partial comparison used by range facets.", "quantifier": "all triples of numeric literals", "why_tests_cant": "all values including those outside the decimal range", "anchors": ["rudof_rdf/src/rdf_core/term/literal/numeric_literal.rs: less_than, less_than_or_eq, partial_cmp"]}
{"id": "C49", "title": "Cardinality bounds survive serialisation", "statement": "Serialising and deserialising a cardinality bound gives back the same bound.", "quantifier": "all bounds", "why_tests_cant": "all machine integers", "anchors": ["rbe/src/max.rs: Serialize/Deserialize", "rbe/src/min.rs"]}
{"id": "C50", "title": "Result map keeps one verdict per pair", "statement": "After any sequence of recorded results, the result shape map returns for each node and shape the recorded status, and the counts of conformant and nonconformant entries equal the recorded ones.", "quantifier": "every sequence of results", "why_tests_cant": "all histories", "anchors": ["shex_ast/src/shapemap/result_shape_map.rs: ResultShapeMap::add_result", "shex_validation/src/validator.rs"]}
{"id": "C51", "title": "Inheritance closure", "statement": "The descendants of a shape are exactly the other shapes that extend it directly or through any chain, and the parents exactly the others it extends directly or through any chain.", "quantifier": "every schema, including cyclic hierarchies", "why_tests_cant": "chains of any length and any shape of the hierarchy", "anchors": ["shex_ast/src/ir/inheritance_graph.rs: InheritanceGraph::{descendants,parents}"]}
{"id": "C52", "title": "A shape that extends others shares the neighbourhood with them", "statement": "Checking a node against a shape that extends others succeeds exactly when, for one alternative of each parent, the triples of the node can be shared out among the shape and the ancestors so that each takes its share and each extra conjunct of a parent takes the shares of the shapes it restricts.", "quantifier": "all neighbourhoods, all schemas with acyclic EXTENDS whose extra conjuncts are shapes without parents, node constraints, references or conjunctions of those", "why_tests_cant": "the search runs over all distributions of the triples; pruning and pre-checks can lose one", "anchors": ["shex_validation/src/engine.rs: check_node_shape_extends, check_node_shape_extends_selections, check_node_selection, check_node_extends_main_shape, extends_closure, try_split_constraint", "shex_ast/src/ir/schema_ir.rs: get_main_shape_constraints, get_preds_extends"]}
{"id": "C53", "title": "Alternatives of an extended expression are the choices of its disjunctions", "statement": "The alternatives computed for an extended shape expression carry exactly the sets of shapes obtained by choosing one branch of every disjunction met through references, conjunctions and further EXTENDS.", "quantifier": "all schemas with acyclic references and EXTENDS and no empty disjunction", "why_tests_cant": "nesting of any depth; the number of alternatives is a product", "anchors": ["shex_ast/src/ir/schema_ir.rs: extend_alternatives, extend_alternatives_rec, dereference", "shex_ast/src/ir/extend_alternative.rs"]}
{"id": "C54", "title": "Validation of a hierarchy of shapes computes the greatest typing", "statement": "For schemas where shapes extend shapes with disjoint predicates, validation succeeds exactly on the greatest typing in which a node conforms to a shape by sharing its triples among the shape and its ancestors, or by conforming to a shape that extends it; abstract shapes only through the latter.", "quantifier": "all data graphs, all acyclic hierarchies of shapes, recursion through references, stratified negation", "why_tests_cant": "coinductive meaning over cyclic data and hierarchies of any depth", "anchors": ["shex_validation/src/engine.rs: Engine::prove, check_node_shape_extends", "shex_ast/src/ir/shape.rs: references_visited"]}
{"id": "C55", "title": "Prefix maps survive serialisation", "statement": "Reading back the entries a prefix map is written to gives the same declarations, in the same order.", "quantifier": "every prefix map", "why_tests_cant": "all maps, in any order of declaration", "anchors": ["prefixmap/src/prefix_map.rs: Serialize, Deserialize"]}
{"id": "C56", "title": "Relative IRIs and fragments", "statement": "An IRI made relative to a base and appended to the base again is unchanged when it starts with the base, and is left whole otherwise; two IRIs are equal without fragment exactly when they agree up to the first hash.", "quantifier": "every pair of IRIs", "why_tests_cant": "all texts", "anchors": ["rudof_iri/src/iri/iris.rs: IriS::{relative_from,extend_unchecked,equal_without_fragment}"]}
{"id": "C57", "title": "Digit counts of numbers", "statement": "The fraction digits reported for a decimal are the least number of digits after the point that write its value, and the total digits the least number of digits in all; integers have no fraction digits and doubles and floats give no answer.", "quantifier": "all decimals and integers", "why_tests_cant": "trailing zeros, signs and zero before the point at any length", "anchors": ["rudof_rdf/src/rdf_core/term/literal/numeric_literal.rs: total_digits, fraction_digits"]}
{"id": "C58", "title": "Literal matching is an equivalence", "statement": "Matching of literals, used by value sets, is reflexive, symmetric and transitive; equal literals match, and literals that match are equal except for the error recorded in ill-formed ones.", "quantifier": "all literals", "why_tests_cant": "all pairs and triples over seven kinds of literals and twelve integer types", "anchors": ["rudof_rdf/src/rdf_core/term/literal/literal.rs: match_literal, PartialEq"]}
{"id": "C59", "title": "Typed integers are checked against their datatype", "statement": "A literal typed with an integer datatype is taken as the number its text writes exactly when the text is in the lexical space of the datatype; any other text is marked as wrong and kept.", "quantifier": "all texts, the thirteen integer datatypes", "why_tests_cant": "all texts of any length; signs, leading zeros and limits of each type", "anchors": ["rudof_rdf/src/rdf_core/term/literal/literal.rs: check_literal_datatype, validate_literal", "rudof_rdf/src/rdf_core/term/literal/numeric_literal.rs: parse_*"]}
{"id": "C60", "title": "Literals survive conversion to RDF and back", "statement": "Reading an RDF literal, converting it back and reading it again gives a literal that matches the first; the datatype never changes, and the text only for derived integer types, booleans, date-times and language tags.", "quantifier": "all RDF literals that can be read", "why_tests_cant": "all texts and datatypes", "anchors": ["rudof_rdf/src/rdf_core/term/literal/literal.rs: TryFrom<oxrdf::Literal> for ConcreteLiteral, From<ConcreteLiteral> for oxrdf::Literal"]}
{"id": "C61", "title": "Matching literals of RDF is term equality", "statement": "Two literals read from RDF match exactly when they have the same text, the same datatype and the same normalised language tag.", "quantifier": "all pairs of RDF literals", "why_tests_cant": "all texts and datatypes", "anchors": ["rudof_rdf/src/rdf_core/term/literal/literal.rs: match_literal, TryFrom<oxrdf::Literal>"]}
{"id": "C62", "title": "Comparison of literals is an order", "statement": "Comparing two literals in the other direction gives the opposite answer, and less-than on literals is transitive.", "quantifier": "all triples of literals", "why_tests_cant": "numbers, texts, ill-formed values of many types mixed", "anchors": ["rudof_rdf/src/rdf_core/term/literal/literal.rs: PartialOrd for ConcreteLiteral"]}
{"id": "C63", "title": "Node constraints are the conjunction of their parts", "statement": "A compiled node constraint accepts a node exactly when the node has the required kind, the required datatype (with a lexical form that fits it), every facet, and a value of the value set, for whichever of these the constraint has; a constraint with none of them accepts every node. A node of kind IRI, BNODE, LITERAL or NONLITERAL is decided by the sort of term.", "quantifier": "For every node constraint of any parts and every node.", "why_tests_cant": "The cases of parts present or absent times the sorts of nodes are combined in options2match_cond, which drops, keeps or nests conditions; tests cover a handful of combinations.", "anchors": ["shex_ast/src/ir/ast2ir.rs: node_constraint2match_cond, options2match_cond", "shex_ast/src/ast/cond_kind.rs: check_node_node_kind, check_node_datatype"]}
{"id": "C64", "title": "Numeric facets bound the value", "statement": "MININCLUSIVE, MINEXCLUSIVE, MAXINCLUSIVE and MAXEXCLUSIVE accept a node exactly when it is a numeric literal whose value is on the right side of the bound; TOTALDIGITS and FRACTIONDIGITS accept exactly those whose value has at most that many digits.", "quantifier": "For every bound and every node, whatever the numeric datatypes.", "why_tests_cant": "Bounds and nodes may have different numeric datatypes and any size; conversions between them are lossy for large values that tests do not use.", "anchors": ["shex_ast/src/ir/ast2ir.rs: xs_facet2match_cond", "shex_ast/src/ast/cond_kind.rs", "rudof_rdf/src/rdf_core/term/literal/numeric_literal.rs: less_than, total_digits, fraction_digits"]}
{"id": "C65", "title": "Length facets count characters", "statement": "LENGTH, MINLENGTH and MAXLENGTH accept a node exactly when the number of characters of its IRI or lexical form is equal to, at least, or at most the number.", "quantifier": "For every number and every node, with any characters.", "why_tests_cant": "Texts in tests are ASCII, where bytes and characters are the same.", "anchors": ["shex_ast/src/ir/ast2ir.rs: check_node_length, check_node_min_length, check_node_max_length"]}
{"id": "C66", "title": "Validation reports exactly the results the shapes define", "statement": "The results reported for a shape on a set of focus nodes are the sum over the focus nodes of the results its constraint components and nested property shapes define, where a reference to a shape means conformance to it.", "quantifier": "every non-recursive schema, every data graph, every list of focus nodes, every earlier history of validations", "why_tests_cant": "unbounded nesting of shapes, and a cache shared by all validations", "anchors": ["shacl/src/validator/engine/validate.rs: IRShape::validate", "shacl/src/validator/constraints/core/{logical,shape_based}"]}
{"id": "C67", "title": "Validation of an accepted schema terminates", "statement": "Validating any shape of a schema whose dependency graph has no cycle on any nodes of any data graph ends, with recursion no deeper than the number of shapes.", "quantifier": "every schema whose dependency graph has no cycle, every data graph, every state of the cache", "why_tests_cant": "termination over unbounded data and schemas", "anchors": ["shacl/src/validator/engine/validate.rs: IRShape::validate", "shacl/src/ir/schema.rs: build_dependency_graph, has_neg_cycle", "shacl/src/ir/dg"]}
{"id": "C68", "title": "Recursive schemas are detected exactly", "statement": "The dependency graph built for a schema has a cycle exactly when some shape refers to itself through a chain of references by constraint components and property shapes.", "quantifier": "every schema", "why_tests_cant": "arbitrary reference structures, shared and cyclic", "anchors": ["shacl/src/ir/schema.rs: build_dependency_graph", "shacl/src/ir/shape.rs: add_edges", "shacl/src/ir/component.rs: add_edges"]}
{"id": "C69", "title": "Negative recursion is detected exactly", "statement": "A schema is reported to have a negative cycle exactly when some shape refers to itself through a chain of references at least one of which is under sh:not.", "quantifier": "every schema", "why_tests_cant": "arbitrary reference structures; the polarity of an edge depends on the order of traversal", "anchors": ["shacl/src/ir/dg/mod.rs: add_edge, find_neg_cycles", "shacl/src/ir/component.rs: add_edges"]}
{"id": "C70", "title": "Focus nodes are the union of what the targets select", "statement": "The focus nodes of a shape are, without repetition, the terms of its node targets other than blank nodes, the subjects and the objects of triples with the predicates of its property targets, and the nodes selected by its class targets.", "quantifier": "every list of targets, every data graph, with or without the class index", "why_tests_cant": "all data graphs; the index and the scan are different code", "anchors": ["shacl/src/validator/engine/native.rs: target_node, target_subject_of, target_object_of", "shacl/src/validator/engine/engine_trait.rs: focus_nodes"]}
{"id": "C71", "title": "Value ranges compare numbers by value", "statement": "sh:minExclusive, sh:minInclusive, sh:maxExclusive and sh:maxInclusive report exactly the value nodes that are not numbers in the range, whatever numeric datatypes the value and the bound have.", "quantifier": "every bound, every list of value nodes", "why_tests_cant": "all pairs of numeric datatypes and all texts of numbers", "anchors": ["shacl/src/validator/constraints/core/value_range", "rudof_rdf/src/rdf_core/term/literal/literal.rs: PartialOrd for ConcreteLiteral, TryFrom<oxrdf::Literal>"]}
{"id": "C72", "title": "Counts and fixed values", "statement": "sh:minCount and sh:maxCount give one result exactly when there are too few or too many value nodes; sh:hasValue gives one exactly when the value is not a value node; sh:in reports exactly the value nodes not in the list.", "quantifier": "every count, every constant, every set of value nodes", "why_tests_cant": "constants of every kind of term, written in any way", "anchors": ["shacl/src/validator/constraints/core/cardinality", "shacl/src/validator/constraints/core/other/has_value.rs", "shacl/src/validator/constraints/core/other/in_constraint.rs"]}
{"id": "C73", "title": "Node kinds and datatypes", "statement": "sh:nodeKind reports exactly the value nodes not of the kind; sh:datatype reports exactly the value nodes that are not literals of the datatype with a text in its lexical space.", "quantifier": "every kind, every datatype, every list of value nodes", "why_tests_cant": "lexical spaces are infinite", "anchors": ["shacl/src/validator/constraints/core/value/node_kind.rs", "shacl/src/validator/constraints/core/value/datatype.rs"]}
{"id": "C74", "title": "Lengths and patterns", "statement": "sh:minLength and sh:maxLength report exactly the value nodes that are blank or whose text has too few or too many characters; sh:pattern reports exactly those that are blank or not matched.", "quantifier": "every length, every regular expression, every list of value nodes", "why_tests_cant": "texts in tests are ASCII, where bytes and characters are the same", "anchors": ["shacl/src/validator/constraints/core/string_based/min_length.rs", "shacl/src/validator/constraints/core/string_based/max_length.rs", "shacl/src/validator/constraints/core/string_based/pattern.rs"]}
{"id": "C75", "title": "Languages", "statement": "sh:languageIn reports exactly the value nodes without a language tag matched by one of the ranges by basic filtering; sh:uniqueLang gives one result for each language, without regard to case, that more than one value node has.", "quantifier": "every list of ranges, every list of value nodes", "why_tests_cant": "tags in any mixture of cases with any subtags", "anchors": ["shacl/src/validator/constraints/core/string_based/language_in.rs", "shacl/src/validator/constraints/core/string_based/unique_lang.rs"]}
{"id": "C76", "title": "sh:class accepts instances of subclasses", "statement": "sh:class reports exactly the value nodes that are not instances of the class, where an instance of a subclass, directly or not, is an instance of the class.", "quantifier": "every class, every data graph, every list of value nodes", "why_tests_cant": "class hierarchies of any depth, with cycles", "anchors": ["shacl/src/validator/constraints/core/value/class.rs"]}
{"id": "C77", "title": "Equal reports agree", "statement": "Reports that are equal agree on whether the data conform, and have as many results of each severity.", "quantifier": "all pairs of reports", "why_tests_cant": "reports of any size with repeated results", "anchors": ["shacl/src/validator/report/mod.rs: PartialEq for ValidationReport, conforms, get_count_of"]}
{"id": "C78", "title": "PGSchema: value types accept exactly the values of the type within the cardinality", "statement": "A value type accepts a set of values exactly when their number is within its cardinality and each is of the type; unions and intersections accept what either or both accept; a checked type accepts what its base accepts if the condition holds of every value.", "quantifier": "every value type, every finite set of values", "why_tests_cant": "types nest without bound and sets of values have any size", "anchors": ["pgschema/src/value_type.rs: ValueType::conforms", "pgschema/src/card.rs: Card::contains"]}
{"id": "C79", "title": "PGSchema: conditions hold exactly by the meaning of their connectives", "statement": "Checking a condition on a value gives true exactly when the condition holds of the value: conjunction when both parts hold, disjunction when one does, negation when the part does not, and a comparison when both values are of one kind and compare so.", "quantifier": "every condition, every value", "why_tests_cant": "conditions nest without bound", "anchors": ["pgschema/src/boolean_expr.rs: BooleanExpr::check", "pgschema/src/value.rs"]}
{"id": "C80", "title": "PGSchema: property specifications accept by their reading", "statement": "The semantics of a property specification accepts a record exactly when it has the properties of one alternative of the specification and no others: all parts of a conjunction, one part of a disjunction, and an optional property present or not.", "quantifier": "every property specification, every record", "why_tests_cant": "specifications nest without bound and a record may have any properties", "anchors": ["pgschema/src/property_value_spec.rs: PropertyValue::semantics", "pgschema/src/record_type.rs: RecordType::combine"]}
{"id": "C81", "title": "PGSchema: node types accept by their reading", "statement": "A node conforms to a node type exactly when its labels and its properties are those that the specification of the type describes, references to other types followed; a type that is not defined, or whose references form a cycle, gives an error.", "quantifier": "every schema, every node type, every node", "why_tests_cant": "specifications and chains of references of any size", "anchors": ["pgschema/src/label_property_spec.rs: LabelPropertySpec::semantics", "pgschema/src/formal_base_type.rs: FormalBaseType::{combine,conforms}", "pgschema/src/pgs.rs: PropertyGraphSchema::conforms_node"]}
{"id": "C82", "title": "PGSchema: an edge conforms exactly when its ends and its content do", "statement": "An edge conforms to an edge type exactly when its labels and properties conform to the type of the edge, its source node to the type of the source and its target node to the type of the target; otherwise the errors are those of the parts.", "quantifier": "every schema, every edge type, every property graph and edge", "why_tests_cant": "all combinations of conforming and failing parts", "anchors": ["pgschema/src/edge_type.rs: EdgeType::conforms_edge", "pgschema/src/pgs.rs: PropertyGraphSchema::conforms_edge"]}
{"id": "C83", "title": "PGSchema: expected verdicts are compared one by one", "statement": "Comparing a type map with the result of validation reports exactly the associations whose expected verdict is not the verdict found.", "quantifier": "every type map and every validation result", "why_tests_cant": "lists of associations of any length, with repeated elements", "anchors": ["pgschema/src/type_map.rs: TypeMap::compare_with_result"]}
{"id": "C84", "title": "PGSchema: merging property graphs loses nothing", "statement": "Merging one property graph into another gives each name the labels and the values of both graphs, keeps the edges of the first, and adds every edge of the second between the nodes of the same names; it never panics on graphs whose names were given once.", "quantifier": "all pairs of property graphs", "why_tests_cant": "graphs of any size sharing any names", "anchors": ["pgschema/src/pg.rs: PropertyGraph::merge", "pgschema/src/node.rs: Node::merge"]}
{"id": "C85", "title": "PGSchema: adding a type leaves the others as they were", "statement": "After a node type or an edge type is added to a schema its name leads to it, and every other name leads to what it led to before; an edge type whose name is taken is refused.", "quantifier": "every schema, name and type", "why_tests_cant": "schemas reached by any sequence of additions", "anchors": ["pgschema/src/pgs.rs: PropertyGraphSchema::{add_node_spec,add_edge_spec}"]}
{"id": "C86", "title": "PGSchema: a schema text means what it says", "statement": "A node (or an edge) conforms to a type declared in a schema text exactly when the text describes it: values of tokens, conditions, cardinalities, types joined by & and |, properties, labels and references to the last declaration of a name. A text is refused exactly when it declares a graph type, names two edge types alike, or has a number or date that cannot be read.", "quantifier": "every parsed schema text, every node and edge", "why_tests_cant": "texts of any length, nested to any depth, with any sequence of declarations", "anchors": ["pgschema/src/parser/pgs_builder.rs: get_create_types, get_label_property_spec, get_labels, get_property_value, get_type_spec, get_cond, get_value", "pgschema/src/pgs.rs: PropertyGraphSchema::{add_node_spec,add_blank_node_spec,add_edge_spec,add_blank_edge_spec}"]}
{"id": "C87", "title": "PGSchema: graph and type map texts mean what they say", "statement": "The graph built from a text has, under each name, the node of its last declaration with the labels and values written there, and exactly the edges written, between the nodes of the names written in them; an edge to a name not declared before is refused. The type map of a text has its associations in order.", "quantifier": "every parsed graph text and type map text", "why_tests_cant": "texts of any length with names declared any number of times", "anchors": ["pgschema/src/parser/pg_builder.rs: get_statements, get_node, get_edge, get_labels_record, get_properties, get_values", "pgschema/src/parser/map_builder.rs: get_type_map, get_association", "pgschema/src/pg.rs: PropertyGraph::{add_node,add_edge}"]}
{"id": "C88", "title": "RBE: a pending map is a set of pairs and of triples", "statement": "However a pending map was built (insert, insert_with_key, annotate_key, merge, pop in any order), contains, get, len and is_empty answer by the set of pairs inserted, the iterators end and yield every triple and every pair once, pop yields a triple of the map and leaves the map without it, and popping until nothing is left yields every triple once.", "quantifier": "every sequence of operations", "why_tests_cant": "the space of operation sequences is unbounded, and the order left by swap_remove depends on it", "anchors": ["rbe/src/pending.rs: Pending::{insert,insert_with_key,merge,annotate_key,get,len,contains,is_empty,iter,iter_vr,pop}, PendingIterator::next"]}
{"id": "C89", "title": "DCTAP: a table is read as its rows say", "statement": "Reading a DCTAP table gives, in order, one shape for each run of rows with the same shape identifier (a row with an empty one belongs to the shape above it), with the identifier, label and extended shape of its first row and one statement for each row with a property, whose fields are the cells of that row found by the names of the columns; blank rows in front are skipped, the warnings are those of the rows without a property, and if a record cannot be read or understood the error is that of the first such row.", "quantifier": "every table, every configuration", "why_tests_cant": "tables with any number of rows, columns in any order and any pattern of empty cells; the reader keeps state from row to row", "anchors": ["dctap/src/tap_reader.rs: TapReader::{read_shape,next_record,next_record_with_id,record2statement}", "dctap/src/tap_headers.rs: TapHeaders::from_record", "dctap/src/dctap.rs: DCTap::from_reader"]}
{"id": "C90", "title": "DCTAP: the order of the columns and the case of the headers do not matter", "statement": "Permuting the columns of a table, header and rows alike, leaves what is read unchanged when no two columns have the same meaning; so does changing the case of headers or the whitespace around them.", "quantifier": "every table, every permutation of its columns", "why_tests_cant": "n! permutations of any number of columns", "anchors": ["dctap/src/tap_headers.rs: TapHeaders::from_record", "dctap/src/tap_reader.rs"]}
{"id": "C91", "title": "DCTAP: generated properties are distinct", "statement": "The names generated for rows whose property is a placeholder differ from each other and from the properties written in the table.", "quantifier": "every table, every pair of rows", "why_tests_cant": "pairs of rows at any distance in tables of any size", "anchors": ["dctap/src/tap_reader.rs: TapReader::{get_property_id,generate_property_id}", "dctap/src/tap_reader_state.rs: TapReaderState::placeholder_id", "dctap/src/placeholder_resolver.rs: PlaceholderResolver::generate"]}
{"id": "C92", "title": "DCTAP: a sheet of a workbook is read row by row", "statement": "Reading a sheet yields one record for each row in use, with the text of each of its cells, and errors show the row they come from.", "quantifier": "every sheet, wherever the part in use begins", "why_tests_cant": "the offset of the part in use is unbounded; test sheets begin at A1", "anchors": ["dctap/src/reader_range.rs: ReaderRange::next_record", "dctap/src/tap_reader_builder.rs: TapReaderBuilder::from_excel"]}
{"id": "C93", "title": "DCTAP to ShEx: names stand for IRIs", "statement": "A name with a colon stands for the IRI of its namespace joined with its local part, a name without one for the base joined with it, an absolute IRI for itself; anything else is refused.", "quantifier": "every name, prefix map and base", "why_tests_cant": "all strings, prefix maps and bases", "anchors": ["shapes_converter/src/tap_to_shex/tap2shex_config.rs: Tap2ShExConfig::resolve_iri, prefix_local_name"]}
{"id": "C94", "title": "DCTAP to ShEx: cardinalities", "statement": "The triple constraint of a statement allows zero values exactly when it is not mandatory, and several exactly when it is repeatable; a missing column says the same as an empty one.", "quantifier": "every statement, every number of values", "why_tests_cant": "all numbers of values", "anchors": ["shapes_converter/src/tap_to_shex/tap2shex.rs: get_min, get_max, statement_to_triple_expr"]}
{"id": "C95", "title": "DCTAP to ShEx: the schema accepts what the table describes", "statement": "The schema of a table declares one shape for each shape of the table, in order, with its label, what it extends and one triple constraint for each statement, and a triple constraint accepts exactly the values of the node kind, datatypes, pick list and shapes of the statement. The conversion succeeds exactly when every name stands for an IRI, every shape has an identifier and every constraint is a pick list.", "quantifier": "every table, every node", "why_tests_cant": "tables of any size; acceptance ranges over all nodes", "anchors": ["shapes_converter/src/tap_to_shex/tap2shex.rs: Tap2ShEx::convert, tapshape_to_shape, tapshape_to_shape_expr, statement_to_value_expr, parse_node_constraint, parse_shape_ref, parse_constraint"]}
{"id": "C96", "title": "Pattern facets match the text behind their flags", "statement": "A node satisfies a pattern facet exactly when it is no triple term and the regular expression, with the flags put in front, compiles and matches the text of the node: the lexical form of a literal, the IRI, or the label of a blank node.", "quantifier": "every node, pattern and flags, every regular expression engine", "why_tests_cant": "all texts, patterns and flags", "anchors": ["shex_ast/src/ast/cond_kind.rs: check_pattern"]}
{"id": "C97", "title": "Compilation keeps the typings of a ShEx schema", "statement": "When a schema is compiled, the typings of the compiled schema, read off the labels of the shapes, are exactly the typings of the written schema: names resolved, default cardinalities filled in, inclusions written out, imports gathered, and the last declaration of a label standing. A label is known to the compiled schema exactly when it is declared.", "quantifier": "every schema with any imports, every graph, every typing", "why_tests_cant": "schemas, imports, graphs and typings of any size", "anchors": ["shex_ast/src/ir/ast2ir.rs: AST2IR::compile, compile_shape_expr, triple_expr2rbe_with_refs, value_expr2match_cond"]}
{"id": "C98", "title": "Compilation keeps the greatest typing", "statement": "For a schema without negation, a pair of a node and the index of a label belongs to the greatest typing of the compiled schema exactly when the node has the label in the greatest typing of the written schema.", "quantifier": "every compiled schema without negation, every graph, node and label", "why_tests_cant": "the greatest typing is a union over all typings of a graph", "anchors": ["shex_ast/src/ir/ast2ir.rs: AST2IR::compile", "shex_validation/src/shex_engine.rs: Engine::prove"]}
{"id": "C99", "title": "Compiling and validating decides the written ShEx schema", "statement": "Validating a node against a label of a compiled schema answers true exactly when the node has the label in the typing of the schema as written: the greatest typing without negation, and the only stratified typing when the labels can be ranked so that references never go up and negated ones go down. Stated for schemas without parents or abstract shapes, whose groups are regular and whose actions stand on node constraints.", "quantifier": "every such schema with any imports, every graph, node and label, every order of hashed collections", "why_tests_cant": "schemas and graphs of any size and shape, with cycles through both", "anchors": ["shex_ast/src/ir/ast2ir.rs: AST2IR::compile", "shex_validation/src/shex_engine.rs: Engine::prove, check_node_shape_expr"]}
{"id": "C100", "title": "A ShEx schema is compiled exactly when it is complete", "statement": "The compiler returns a schema if and only if every import is resolved and retrieved, the labels of triple expressions are distinct over all schemas, every declaration stands for something, refers to declared labels and includes known triple expressions, and the start expression includes none.", "quantifier": "every schema and everything that can be retrieved", "why_tests_cant": "schemas and chains of imports of any size", "anchors": ["shex_ast/src/ir/ast2ir.rs: AST2IR::compile, collect_imports_labels, collect_shape_labels, collect_triple_expr_labels_schema"]}
{"id": "C101", "title": "Compilation of a ShEx schema ends", "statement": "Compilation ends with a schema or an error, whatever the schema and its imports.", "quantifier": "every schema and everything that can be retrieved, as long as that is finite", "why_tests_cant": "an endless run cannot be told from a long one by testing", "anchors": ["shex_ast/src/ir/ast2ir.rs: compile_shape_expr, triple_expr2rbe_with_refs, collect_imports_labels"]}
{"id": "C102", "title": "Imports are gathered once each and labels numbered in order", "statement": "The sources visited are those imported by the root directly or through others, each once. The index of a label is the position of its last declaration, those of imported schemas before those of the root and the start expression last, and an index is abstract exactly when the declaration at its position is.", "quantifier": "every schema and everything that can be retrieved, with cycles of imports", "why_tests_cant": "graphs of imports of any size and shape", "anchors": ["shex_ast/src/ir/ast2ir.rs: collect_imports_labels, collect_imported_shape_labels, collect_shape_labels", "shex_ast/src/ir/schema_ir.rs: SchemaIR::add_shape, add_abstract_shape"]}
{"id": "C103", "title": "Well-formed ShEx schemas are compiled", "statement": "A schema is compiled when its imports can be resolved and retrieved, a label written on a triple expression anywhere gives one triple expression, and every declaration stands for something and refers to declared labels.", "quantifier": "every schema and everything that can be retrieved", "why_tests_cant": "schemas and chains of imports of any size", "anchors": ["shex_ast/src/ir/ast2ir.rs: AST2IR::compile, collect_triple_expr_labels_triple_expr, collect_shape_labels"]}
{"id": "C104", "title": "Reading ShExC ends, with a schema or an error", "statement": "Whatever the text, reading it in the compact syntax ends, and it ends with a schema or an error, not with a panic.", "quantifier": "every text", "why_tests_cant": "all texts of any length and any depth of brackets", "anchors": ["shex_ast/src/compact/shex_parser.rs: ShExParser::parse", "shex_ast/src/compact/shex_grammar.rs: shex_statement, shape_expr, triple_expression, ...", "shex_ast/src/compact/grammar.rs"]}
{"id": "C105", "title": "ShExC: names stand for what was declared before them", "statement": "When a text in the compact syntax is read, the shapes of the schema are the declarations of the text in their order and the start is the last one written, and each name in them is replaced by what it stands for: an IRI resolved against the base last declared before, a prefixed name by the namespace last declared before for its prefix followed by its local part. A text whose statements can be read is refused only if some name stands for nothing.", "quantifier": "every text, every base, every notion of IRI and of resolution", "why_tests_cant": "texts with any number of declarations, redeclared prefixes and bases anywhere among them", "anchors": ["shex_ast/src/compact/shex_parser.rs: ShExParser::parse", "shex_ast/src/ast: deref implementations (schema.rs, shape_expr.rs, triple_expr.rs, node_constraint.rs, value_set_value.rs, ...)", "prefixmap/src/iri_ref.rs: IriRef::deref"]}
{"id": "C106", "title": "ShExC: words are read as they are written", "statement": "Reading a text of a word of the compact syntax gives back what was written, whatever comes after it, and leaves what comes after it: strings in any of the four ways and with any escapes, names, labels, literals, numbers, language tags, patterns, cardinalities, code, and white space and comments between them.", "quantifier": "every word, every way to write it, every text after it", "why_tests_cant": "words of any length, all mixtures of characters and escapes", "anchors": ["shex_ast/src/compact/shex_grammar.rs: string, string_literal1, string_literal_long1, iri_ref, pname_ln, pname_ns, blank_node_label, raw_numeric_literal, integer, regexp, repeat_range, code, lang_tag", "shex_ast/src/compact/grammar.rs: tws0, comment, multi_comment"]}
{"id": "C107", "title": "ShExC: schemas are read as they are written", "statement": "Reading a text of the grammar of the compact syntax gives back the statements that were written, in their order: operators bind as the grammar says, brackets may be of any depth, cardinalities, annotations and actions belong to the expression they follow. White space, comments and capitals of keywords do not matter. A text stands for one schema only.", "quantifier": "every text of the grammar", "why_tests_cant": "texts of any length and any depth of brackets", "anchors": ["shex_ast/src/compact/shex_grammar.rs: shex_statement, shape_expression, shape_or, shape_and, shape_not, shape_atom, shape_definition, triple_expression, unary_triple_expr, triple_constraint, value_set, node constraints", "shex_ast/src/compact/shex_parser.rs: ShExParser::parse"]}
{"id": "C108", "title": "ShExC: schemas that are written can be read back", "statement": "A schema that is written in the compact syntax is read back as the same schema, whatever way its text is laid out. The printer writes every schema that has no alternative of triple expressions, no reference to a triple expression, no value other than IRIs and numbers, and no annotation with a literal other than strings and numbers; for those it panics.", "quantifier": "every schema, every layout, every notion of IRI", "why_tests_cant": "schemas of any size and depth, all layouts", "anchors": ["shex_ast/src/compact/shex_compact_printer.rs: ShExFormatter::format_schema, pp_schema, pp_shape_expr, pp_triple_expr, pp_node_constraint, ...", "shex_ast/src/compact/compact_printer.rs: pp_object_value, pp_iri_ref", "shex_ast/src/compact/shex_parser.rs: ShExParser::parse"]}
{"id": "C109", "title": "Shape maps are read as they are written", "statement": "Reading a text of the grammar of shape maps gives back the associations that were written, in their order; white space, comments, capitals of keywords and a comma at the end do not matter, and a text stands for one shape map only. Whatever the text, reading it ends, with a shape map that is not empty or an error, not with a panic.", "quantifier": "every text", "why_tests_cant": "texts of any length, all ways to write names, literals and queries", "anchors": ["shex_ast/src/compact/shapemap_grammar.rs: shapemap_statement, association, node_selector, triple_pattern, shape_spec", "shex_ast/src/compact/shapemap_parser.rs: ShapeMapParser::parse"]}
{"id": "C110", "title": "Shape maps: names stand for what the two prefix maps say", "statement": "When a shape map is read, each name of a node is replaced by what it stands for with the prefixes and the base of the nodes, and each name of a shape by what it stands for with those of the shapes; the text is refused only if a name stands for nothing, and no prefixed name is left.", "quantifier": "every text, all prefixes and bases, every notion of IRI and of resolution", "why_tests_cant": "shape maps with any number of associations and any prefixes", "anchors": ["shex_ast/src/compact/shapemap_parser.rs: ShapeMapParser::parse", "shex_ast/src/shapemap/query_shape_map.rs: add_association", "prefixmap/src/iri_ref.rs: IriRef::deref"]}
{"id": "C111", "title": "Shape maps that are written can be read back", "statement": "A shape map that was read is printed without a panic, and the text is read back as the same shape map.", "quantifier": "every shape map", "why_tests_cant": "any number of associations, all selectors, names, strings and queries", "anchors": ["shex_ast/src/compact/shapemap_compact_printer.rs: format_shapemap, pp_shapemap, pp_association, pp_node_selector, pp_pattern, pp_shacl_path, pp_shape_selector"]}
{"id": "C112", "title": "A shape map selects the nodes that its patterns stand for", "statement": "The pairs of nodes and shapes of a shape map are the nodes of each selector with the shape of its association, in order: a named node is selected alone, and { FOCUS p o } and { s p FOCUS } select the subjects and objects of the triples of the graph that the pattern stands for. A failure of a selector fails the whole, and no shape map that was read panics.", "quantifier": "every shape map, every graph, every query engine that answers queries with one triple pattern", "why_tests_cant": "all graphs, all patterns, any number of associations", "anchors": ["shex_ast/src/shapemap/node_selector.rs: NodeSelector::nodes, mk_path_str, mk_vble, resolve_query", "shex_ast/src/shapemap/query_shape_map.rs: node_shapes", "shex_ast/src/shapemap/association.rs: iter_node_shape"]}
{"id": "C113", "title": "SHACL shapes converted to ShEx mean the same", "statement": "The conversion of SHACL shapes gives one shape for each node shape, with its label, in the order of the schema, and a node conforms to it exactly if it conforms to the SHACL shape. If there is something in the shapes that cannot be converted, there is no schema.", "quantifier": "every schema, all data", "why_tests_cant": "shapes with any properties and data with any arcs; equivalence for all data cannot be tested", "anchors": ["shapes_converter/src/shacl_to_shex/shacl2shex.rs: Shacl2ShEx::convert, convert_shape, node_shape2shape_expr, convert_target_decls, merge_triple_exprs, property_shape2triple_constraint, components2shape_expr, component2shape_expr"]}
{"id": "C114", "title": "Graphs made from a schema and a map conform to the schema", "statement": "Materialising a ShEx schema with a map of values ends with one graph or an error that says what is wrong. Every triple of the graph comes from a triple constraint of the schema: its object is a new blank node for a shape, or a value that the map has for one of the actions of the constraint. The graph conforms to the schema.", "quantifier": "every schema, every map, every initial node", "why_tests_cant": "schemas of any size with shapes that refer to each other; whether the recursion ends and whether the graph conforms depends on all of them", "anchors": ["shex_ast/src/materialize/materializer.rs: Materializer::materialize, find_start_shape_expr, find_shape_by_label, generate_shape_expr, generate_shape, generate_triple_expr, apply_map_actions"]}
{"id": "C115", "title": "A comparison of two shapes tells what they have in common and where they differ", "statement": "Comparing two shapes gives the properties that both have, those that only the first has and those that only the second has; exchanging the shapes exchanges the sides. The model of a shape has the properties of its triple constraints with what is said of their values; labels that are not found and expressions that are not supported are errors.", "quantifier": "every pair of schemas, every label, both configurations", "why_tests_cant": "shapes with any triple constraints in any order, maps with any order of iteration; that no property is left out needs all of them", "anchors": ["shapes_comparator/src/coshamo.rs: CoShaMo::compare, CoShaMo::resolve", "shapes_comparator/src/coshamo_converter.rs: populate_from_shex, shape2coshamo, triple_expr2coshamo, triple_constraint2coshamo, triple_expr_as_constraint2coshamo, value_expr2value_constraint", "shapes_comparator/src/shaco.rs: ShaCo", "shex_ast/src/ast/schema.rs: find_shape, find_shape_by_iri_ref"]}
{"id": "C116", "title": "RDF lists are read as their members in order, and nothing else is read as a list", "statement": "Reading an RDF list at a node gives its members in their order; the reading ends in every graph, also for cyclic lists, and a node that is not a well-formed list (one rdf:first and one rdf:rest for each cell, ending with rdf:nil) is an error.", "quantifier": "every graph, every node, every order in which hash sets are traversed", "why_tests_cant": "graphs of any size with cells linked in any way, including circles and shared tails; the result may depend on hash order", "anchors": ["rudof_rdf/src/rdf_core/parser/rdf_node_parser/constructors/list.rs: ListParser", "rudof_rdf/src/rdf_core/parser/rdf_node_parser/utils.rs: parse_list_recursive"]}
{"id": "C117", "title": "A SHACL property path is read as the path it stands for", "statement": "The reader of property paths gives for a node the path that it stands for by the definition of SHACL, an error for all nodes that stand for no path, and it always ends.", "quantifier": "every graph, every node, every focus before, every order of hash sets", "why_tests_cant": "paths nest to any depth and nodes of graphs may be linked in circles; alternatives are tried one after the other with a shared focus", "anchors": ["rudof_rdf/src/rdf_core/parser/rdf_node_parser/constructors/shacl.rs: ShaclPathParser", "rudof_rdf/src/rdf_core/parser/rdf_node_parser/combinators.rs: Or"]}
{"id": "C118", "title": "The constraints read at a shape are those that the graph declares for it", "statement": "Reading the constraint components at a node of a shapes graph gives exactly the components that the triples of the node declare, each with its values; a value that is malformed is an error; the reading ends, does not panic, and leaves the focus at the node.", "quantifier": "every graph in which single-valued properties have one value, every node, every order of hash sets, every conversion of literals", "why_tests_cant": "twenty-nine kinds of components with any values in any combination, read one after the other with a shared focus; one parser that moves the focus spoils those after it", "anchors": ["shacl/src/rdf/parsers/components.rs: components", "shacl/src/rdf/parsers: value_type, cardinality, value_range, string_based, property_pair, logical, shape_based, other, sparql, non_shape"]}
{"id": "C119", "title": "A shapes graph is read as the schema with one shape for each node that is a shape", "statement": "The reader of SHACL gives an entry for each node that is a shape (instance of a shape class, with a target, used as a shape, or with constraints) and for no other; the entry is a property shape if the node has a path and otherwise a node shape, with the targets, severity, properties, path, reifiers and components that the node declares; a graph with a malformed shape is an error.", "quantifier": "every graph in which single-valued properties have one value, every order of hash sets, every conversion of literals", "why_tests_cant": "shapes refer to each other in any way, circles included; each shape is read in the state that the reading of the others leaves behind", "anchors": ["shacl/src/rdf/parser.rs: ShaclParser::parse, shapes_candidates, get_triples, get_triples_list, objects_with_predicate, shape", "shacl/src/rdf/parsers/shape_type: node_shape, property_shape, path", "shacl/src/rdf/parsers/targets", "shacl/src/rdf/parsers/shape_based/reifier_shape.rs"]}
{"id": "C120", "title": "A SHACL schema that is written to a graph can be read back", "statement": "Writing a SHACL schema to a graph does not panic, and reading the graph gives back the same shapes: the same names, severities, targets, property shapes, paths and components.", "quantifier": "every schema, every order of hash sets, every conversion of literals that reads what it has written", "why_tests_cant": "any number of shapes with any of the twenty-nine kinds of components, which refer to each other in any way; writer and reader are separate code that must agree on each kind", "anchors": ["shacl/src/rdf/writer.rs: ShaclWriter::write", "shacl/src/ir/schema.rs: IRSchema::build_graph", "shacl/src/ir/component.rs: IRComponent::register, register_integer, register_boolean, register_literal, register_iri, register_term", "shacl/src/ir/node_shape.rs: IRNodeShape::register", "shacl/src/ir/property_shape.rs: IRPropertyShape::register", "shacl/src/types/target.rs: Target::register", "shacl/src/types/severity.rs"]}
{"id": "C121", "title": "A graph in memory has the triples that were put into it, and queries see them", "statement": "After any operations on a graph in memory it has, once each, the triples that were added or read and not removed since; lists of matching triples and queries tell of exactly these; reading a document adds the triples of the document, or fails and adds none; new blank nodes are not in the graph.", "quantifier": "every sequence of operations, every document, format and mode, every pattern, every evaluation of queries", "why_tests_cant": "graphs are built by any sequence of reading, adding, removing and asking; the store for queries is made at some moment in it and may be older than the graph", "anchors": ["rudof_rdf/src/rdf_impl/oxigraph/in_memory.rs: merge_from_reader, parse_turtle, parse_ntriples, parse_rdfxml, parse_nquads, parse_jsonld, ensure_store, triples_matching, add_bnode, add_triple, remove_triple, add_type, query_select, query_ask"]}
{"id": "C122", "title": "The engine sees the same arcs whether the data is a graph, a SPARQL service or both", "statement": "The arcs of a node that graphs, SPARQL services and their combination give are those of the triples they have, each once, with a remainder that has the other predicates of the node; the cache of a service does not change its answers; a service that is down is an error unless the answer is known; so the verdict for a shape is the same over all of them.", "quantifier": "every graph, every service with any history of calls, any number of services, every node, list of predicates and shape", "why_tests_cant": "the cache depends on all the calls before; services fail at any time; each back end has its own code for the same method", "anchors": ["rudof_rdf/src/rdf_core/neighs_rdf.rs: outgoing_arcs_from_list, incoming_arcs_from_list", "rudof_rdf/src/rdf_impl/oxigraph/endpoint.rs: outgoing_arcs_from_list, triples_matching", "rudof_rdf/src/rdf_impl/backend.rs: outgoing_arcs_from_list, triples_matching", "sparql_service/src/srdf_data/rdf_data.rs: outgoing_arcs_from_list, triples_matching, triples", "shex_validation/src/engine.rs: neighs, check_node_shape"]}
{"id": "C123", "title": "Semantic actions are run as their extensions say", "statement": "An action is run by the extension with its IRI; Test prints or fails with the message that is written in its code, Map puts the object of the triple under its key; actions of a triple constraint are run for the triples that match it and make the match fail if they fail; actions at the start are run once and stop the validation if they fail.", "quantifier": "every code, triple, registry, list of actions and state before", "why_tests_cant": "codes are texts of any form with escapes; the state is shared by all actions and a message may have any characters", "anchors": ["shex_ast/src/ir/actions/test_action_extension.rs: run_action", "shex_ast/src/ir/actions/map_action_extension.rs: run_action", "shex_ast/src/ir/actions/semantic_actions_registry.rs: find_code, run_action", "shex_ast/src/ast/cond_kind.rs: eval", "shex_ast/src/ir/ast2ir.rs: sem_acts_to_conds, value_expr2match_cond", "shex_validation/src/engine.rs: check_start_acts, validate_pending"]}
{"id": "C124", "title": "EXTERNAL shapes are resolved by the first resolver that knows them", "statement": "A declaration that is EXTERNAL gets the definition of the first resolver of the chain that has one for its label, and all else of the schema stays; for one that is left the first resolver that does not abstain decides, and without one no node conforms; specifications of resolvers are accepted exactly in the documented form.", "quantifier": "every chain of resolvers, every schema, every node, every specification", "why_tests_cant": "chains have any length and the schemas of resolvers may have EXTERNAL declarations and labels twice", "anchors": ["shex_ast/src/ir/external_resolver.rs: rewrite_ast, dispatch, with_resolver, lookup_decl, resolver_from_spec", "shex_validation/src/engine.rs: check_node_shape_expr"]}
{"id": "C125", "title": "SHACL constraints in the SPARQL mode report what SHACL says", "statement": "In the SPARQL mode the constraints on kinds, classes, ranges, lengths, patterns, equal, disjoint and ordered properties and closed shapes report the value nodes (and values of properties) for which the condition of SHACL does not hold, over a store that answers queries as SPARQL 1.1 says.", "quantifier": "every graph, every store that is correct for it, every focus node, list of value nodes and constraint", "why_tests_cant": "terms are written into the texts of queries, where the same text may mean something else; tests have a few terms of the common kinds", "anchors": ["shacl/src/validator/constraints/mod.rs: validate_ask_with, validate_ask_with_opt, object_as_sparql", "shacl/src/validator/constraints/core: validate_sparql of class, node_kind, min_exclusive, min_inclusive, max_exclusive, max_inclusive, min_length, max_length, pattern, equals, disjoint, less_than, less_than_or_equals, closed"]}
{"id": "C126", "title": "Both modes of SHACL validation have the same focus nodes and results", "statement": "In the SPARQL mode the focus nodes of a shape are those of its targets, each once, and the results of each constraint are those of the native mode, in any order.", "quantifier": "every graph, every store that is correct for it, every list of targets, every focus node, value nodes and constraint", "why_tests_cant": "each mode has its own code for each constraint; they agree on common data and differ on rare terms", "anchors": ["shacl/src/validator/engine/sparql.rs: target_node, target_class, target_subject_of, target_object_of, implicit_target_class, focus_nodes", "shacl/src/validator/constraints/core: validate_native and validate_sparql"]}
{"id": "C127", "title": "Terms and paths are read back from their texts in queries", "statement": "The text that is written into a SPARQL query for an IRI or a literal is read as this term and nothing else, with any characters in the literal; the text of a path is read by the grammar of SPARQL as a path that relates the same nodes in every graph.", "quantifier": "every term, every path of any depth, every text that may follow", "why_tests_cant": "quotes, backslashes, brackets and line ends may occur in literals; paths nest without bound", "anchors": ["shacl/src/validator/constraints/mod.rs: object_as_sparql, escape_sparql_string", "shacl/src/validator/constraints/sparql/mod.rs: path_to_sparql"]}
{"id": "C128", "title": "SPARQL-based constraints ask for their focus node and report the solutions", "statement": "The query of a SPARQL-based constraint is asked once for each focus node, bound to it in its outer group, with $PATH replaced by the path of the shape; there is one result for each solution with the path, value and message that SHACL says; a failing query or ?failure is an error; a deactivated constraint reports nothing.", "quantifier": "every query, path, list of focus nodes and store", "why_tests_cant": "queries are texts of any form, where keywords and braces occur in comments, strings and names", "anchors": ["shacl/src/validator/constraints/sparql/mod.rs: inject_values_into_where", "shacl/src/validator/constraints/sparql/basic_validator.rs: validate_sparql"]}
{"id": "C129", "title": "The order of shapes for generation respects dependencies", "statement": "The order of shapes is an error exactly if a shape depends on itself through references; otherwise it has each shape that is needed exactly once, with every shape before all shapes it depends on.", "quantifier": "every dependency graph and every order of its iteration", "why_tests_cant": "graphs have any size and hash order varies between runs; tests have a chain or two", "anchors": ["rudof_generate/src/shape_processing.rs: topological_sort, visit"]}
{"id": "C130", "title": "The numbers of generated values, links and entities are those asked for", "statement": "The generator makes for each property a number of values that its bounds allow, with every strategy; links go to entities of the target shape only, in a number within the bounds or to all of them; with equal shares the numbers of entities differ by at most one and add up to the total.", "quantifier": "all bounds, strategies, random numbers, indices and totals", "why_tests_cant": "the numbers are random, and bounds interact with limits in the code; tests sample a few", "anchors": ["rudof_generate/src/parallel_generation.rs: calculate_property_value_count, calculate_relationship_count, generate_relationships_for_dependency, calculate_entity_distribution"]}
{"id": "C131", "title": "Generated data conform to the schema", "statement": "Each entity that is generated for a shape has for each constraint of the shape a number of values within its bounds, and these values are of the kind and datatype that the constraint asks for.", "quantifier": "every schema, configuration, distribution, and outcome of the random numbers", "why_tests_cant": "data are random; tests look at whether some triples are there", "anchors": ["rudof_generate/src/parallel_generation.rs: generate_data, generate_single_entity, generate_nested_entity_properties, generate_relationships, create_typed_literal", "rudof_generate/src/shape_processing.rs: extract_dependencies_and_properties"]}
{"id": "C132", "title": "Schemas keep their meaning in the form that data are generated from, or the loss is told", "statement": "The unified form of a ShEx schema or SHACL shapes graph has the same properties with the same allowed numbers of values; if the reported numbers of constraints say that all are represented, then a value satisfies the unified constraints of a property exactly if it satisfies the constraint in the schema.", "quantifier": "every triple expression, node constraint, property shape and value", "why_tests_cant": "constraints can be combined at will, and a constraint that is dropped shows only as values that are too free", "anchors": ["rudof_generate/src/converters/shex_to_unified.rs", "rudof_generate/src/converters/shacl_to_unified.rs", "rudof_generate/src/conformance_metrics.rs: evaluate_constraint"]}
{"id": "C133", "title": "Data count as fully valid exactly if they conform", "statement": "All triples of a graph count as valid in the conformance metrics exactly if every node has a type that is a shape of the model and conforms to it, taken as closed; and all triples of data that were generated from the model count as valid.", "quantifier": "every graph, model, configuration and outcome of the random numbers", "why_tests_cant": "graphs have any size; a metric that is too kind is not seen in tests with good data", "anchors": ["rudof_generate/src/conformance_metrics.rs: from_graph_and_model, validate_non_type_triple", "rudof_generate/src/lib.rs: convert_unified_to_shape_infos"]}
{"id": "C134", "title": "Texts that are generated for a datatype are texts of that datatype and within the bounds", "statement": "The generator that is configured for a property is used, otherwise that for the datatype, otherwise the one registered for the datatype; texts made for integers, booleans, dates and times are in the lexical space of these datatypes; integers are within the bounds of the constraints.", "quantifier": "every property, datatype, configuration, list of constraints and outcome of the random numbers", "why_tests_cant": "texts are random, and bounds come in any order and size", "anchors": ["rudof_generate/src/field_generators/mod.rs: generate_field", "rudof_generate/src/field_generators/registry.rs", "rudof_generate/src/field_generators/basic.rs", "rudof_generate/src/parallel_generation.rs: constraints_to_parameters"]}
{"id": "C135", "title": "Texts that are generated for a pattern match it", "statement": "The text that is made for a string property with a pattern is a text of this regular expression; characters before or after a known pattern are kept.", "quantifier": "every regular expression and outcome of the random numbers", "why_tests_cant": "there are infinitely many regular expressions, and tests use those that the code looks for by name", "anchors": ["rudof_generate/src/field_generators/pattern.rs: generate_from_pattern, generate_simple_pattern, generate_from_char_class"]}
{"id": "C136", "title": "Schemas written to ShExJ are read back", "statement": "A schema written to ShExJ and read again has the same declarations, shape and triple expressions, node constraints, values, labels, semantic actions, annotations, prefixes and base; only the facets of node constraints are put in a fixed order, imports become texts and the source is not kept. It holds if names, language tags and numbers are what their texts are read as, no two facets are of one kind, ranges have exclusions, labels are IRIs without `_:` or blank nodes, and nesting is at most 127. References and objects of annotations come back exactly under these conditions; ranges without exclusions, repeated facets and deeper nesting are refused.", "quantifier": "every schema in the syntax tree, every set of IRIs, language tags and numbers", "why_tests_cant": "schemas nest without limit, and the losses are in rare combinations: an IRI with `_:`, two facets of a kind, a range without exclusions, a literal with a datatype that has literals of its own", "anchors": ["shex_ast/src/ast/schema.rs: Schema, from_reader", "shex_ast/src/ast/shape_expr.rs", "shex_ast/src/ast/triple_expr.rs", "shex_ast/src/ast/node_constraint.rs: Serialize, Deserialize", "shex_ast/src/ast/value_set_value.rs: Serialize, Deserialize", "shex_ast/src/ast/object_value.rs: Serialize, Deserialize", "shex_ast/src/ast/exclusion.rs", "shex_ast/src/ast/shape_expr_label.rs: TryFrom<&str>", "shex_ast/src/ast/triple_expr_label.rs"]}
{"id": "C137", "title": "A ShEx schema converted to a SPARQL query asks for the nodes that can conform", "statement": "The query has one pattern for each triple constraint of the shape asked for (else of the start expression, else of the first shape), along its predicate and in the order written, with variables named after the predicates; every node that conforms to the shape is an answer if the shape requires each of its constraints and different predicates have different variables; an answer has a value for every predicate; the text of the query declares the prefixes and names every predicate.", "quantifier": "every schema, shape, prefix map, graph and typing", "why_tests_cant": "schemas, graphs and typings are unbounded; the only test has one schema with two required constraints", "anchors": ["shapes_converter/src/shex_to_sparql/shex2sparql.rs", "shapes_converter/src/shex_to_sparql/select_query.rs", "shapes_converter/src/shex_to_sparql/triple_pattern.rs", "shapes_converter/src/shex_to_sparql/var.rs", "shex_ast/src/ast/schema.rs: find_shape_by_iri_ref, find_shape_by_label"]}
{"id": "C138", "title": "A ShEx schema converted to a class diagram shows its shapes, constraints and references", "statement": "A schema is converted exactly if each of its declarations can be; the diagram has a class for each shape with an entry for each triple constraint whose values are not references, a link for each that refers to shapes, with an operator between if there are several, a pair for each shape extended, and nothing else; one name is one node; the usual cardinalities are shown as they are; both ends of every link are drawn if the shapes referred to are declared; the neighbours of a class are what is linked to it.", "quantifier": "every schema, prefix map and configuration", "why_tests_cant": "schemas have any number of shapes, and nodes are numbered as names are met, so mistakes show only when declarations, references and operators are interleaved", "anchors": ["shapes_converter/src/shex_to_uml/shex2uml.rs", "shapes_converter/src/shex_to_uml/uml.rs", "shapes_converter/src/shex_to_uml/uml_cardinality.rs", "shapes_converter/src/shex_to_uml/uml_class.rs", "shapes_converter/src/lib.rs: find_annotation"]}
{"id": "C139", "title": "Compiled schemas that are saved to a file come back", "statement": "Every compiled schema can be written. It can be read again exactly if its IRIs are valid, its upper bounds are positive 64-bit numbers, and it has no boolean literal, and, for a strict reader, no negative cycle. What is read is then the schema written, with the registry of the reader, if its labels are IRIs; nothing is read from a file that was cut short or that begins otherwise than with the mark and the version of the format; the symbols and the flag of expressions, which are not in the file, are computed again as they were.", "quantifier": "every compiled schema, version text, registry, mode and sequence of bytes", "why_tests_cant": "compiled schemas nest without limit and have some forty kinds of parts, each with a writer and a reader of its own; the tests save two small schemas", "anchors": ["shex_ast/src/ir/cache.rs: CacheHeader, CacheReaderMode", "shex_ast/src/ir/schema_ir.rs: write, read", "shex_ast/src/ir/shape_label.rs: Serialize, Deserialize, TryFrom<&str>", "shex_ast/src/ir/node_constraint.rs", "shex_ast/src/ast/cond_kind.rs", "rbe/src/match_cond.rs", "rbe/src/max.rs: Serialize, Deserialize", "rbe/src/rbe_struct.rs: Serialize, Deserialize", "rudof_rdf/src/rdf_core/term/literal/literal.rs: serialize_boolean_literal", "rudof_rdf/src/rdf_core/term/literal/numeric_literal.rs: Serialize, Deserialize"]}
{"id": "C140", "title": "Information about a node shows the walks of a graph from it and to it", "statement": "Information about a node is made exactly if the node is an IRI or a blank node and the predicates asked for can be read, or only incoming arcs are wanted. With a depth of at least one, the trees show each outgoing arc with a predicate asked for once, in the order of predicates, and below it those of the node it leads to; branches are the walks of at most that many steps. Incoming arcs likewise, whatever their predicates. By default all arcs of the node are shown, one step far. With depth zero it panics as soon as there is an arc to go on from. The text of a node loses white space around it and, unless it is taken strictly, gets angle brackets if it has `://` and does not begin with `<`, `_` or `{`; doing that twice is doing it once.", "quantifier": "every graph, node, list of predicates, direction and depth, every order of iteration of sets, every text", "why_tests_cant": "graphs with cycles have walks of any length and objects are shared between branches; the tests show a node with few arcs and look for some texts in the output", "anchors": ["rudof_lib/src/api/data/implementations/show_node_info.rs", "rudof_lib/src/utils/utils.rs: normalize_iri_str", "rudof_lib/src/formats/node.rs: NodeInspectionMode", "rudof_rdf/src/rdf_core/neighs_rdf.rs: outgoing_arcs, outgoing_arcs_from_list, incoming_arcs"]}
{"id": "C141", "title": "The drawing of a graph shows its terms, its triples and its triple terms", "statement": "A graph can be drawn exactly if each of its literals can be read. The drawing has one node for each picture of a term that is a subject or an object, also inside triple terms, and for each predicate of a triple term; nodes have different numbers, from zero without gaps; there is an edge from one number to another with the label of a predicate exactly if there is such a triple, once; a triple term is drawn as asserted exactly if the graph has the triple as it is read. What is counted are the triples with the term as subject, predicate and object. The text can be written in any order of nodes and edges, declares every node, has a line for every edge and three arrows for every triple term. Different terms have different nodes if they are shown differently.", "quantifier": "every graph with triple terms nested to any depth, every order of iteration, every style", "why_tests_cant": "triple terms nest without limit and share their parts; nodes are numbered as they are met; the tests draw a graph of a few triples and do not look at the output", "anchors": ["rudof_rdf/src/rdf_core/visualizer/visual_rdf_graph.rs", "rudof_rdf/src/rdf_core/visualizer/visual_rdf_node.rs", "rudof_rdf/src/rdf_core/visualizer/visual_rdf_edge.rs", "rudof_rdf/src/rdf_core/visualizer/utils/usage_count.rs"]}
{"id": "C142", "title": "A service description read from a graph says what the graph says of its service", "statement": "If a description is read, the graph has exactly one service, and the title, endpoint, languages, features, formats, graphs, numbers of triples and partitions of the description are those that the graph gives for it. If the languages are known, features and formats are IRIs, and available graphs and default datasets are in order, then it is read. Without a service, with two, or with an unknown language there is an error; reading never panics. The metadata made from a description has its title, its endpoint and the names of all available graphs.", "quantifier": "every graph, every order of iteration, every description and prefix map", "why_tests_cant": "descriptions nest collections, graphs, datasets and partitions, each optional and repeated, and errors inside optional parts are swallowed; the tests of the crate read none", "anchors": ["sparql_service/src/service_description_parser.rs", "sparql_service/src/service_description.rs: service2mie", "sparql_service/src/graph_description.rs", "sparql_service/src/named_graph_description.rs", "sparql_service/src/graph_collection.rs", "sparql_service/src/dataset.rs", "sparql_service/src/class_partition.rs", "sparql_service/src/property_partition.rs", "sparql_service/src/feature.rs", "sparql_service/src/sparql_result_format.rs", "sparql_service/src/service_description_vocab.rs"]}
{"id": "C143", "title": "Answers to a query are shown as they are", "statement": "Answers written as comma-separated values are read back as a header with the variables and a row for each answer, with the value of each variable in its column, whatever characters the values have; a drawn table has the same grid with numbers of rows; JSON has an entry for each variable that is bound. Writing succeeds exactly if the values can be converted, and, for comma-separated values, if all answers have as many variables. A query over several sources is answered exactly if each answers it, with the answers of all, in order; a question of yes or no is answered with yes as soon as a source says so. Answers are written exactly in the formats for tables and JSON.", "quantifier": "every list of answers, set of variables, prefix map, list of sources, every conversion of terms and every text of literals", "why_tests_cant": "values can have any characters, and mistakes of quotation show only for commas, quotation marks and ends of lines; the tests do not read a table back", "anchors": ["rudof_rdf/src/rdf_core/query/query_solution.rs", "rudof_rdf/src/rdf_core/query/query_solutions.rs", "rudof_rdf/src/rdf_core/query/var_name.rs", "rudof_rdf/src/rdf_core/query/variable_solution_index.rs", "sparql_service/src/srdf_data/rdf_data.rs: query_select, query_ask", "rudof_lib/src/api/query/implementations/serialize_query_results.rs", "rudof_lib/src/api/query/implementations/run_query.rs"]}
{"id": "C144", "title": "HTML pages show the shapes of a schema", "statement": "A ShEx schema is converted to HTML pages exactly if each of its declarations can be read by itself. Then there is exactly one page for each name that is declared, extended or referred to, with an entry for each triple constraint of its declarations, in order, the names it extends, and the name as it was first met; everything a page refers to has a page; the landing page lists each page once with its file and label. The label of a declaration is that of its page. Names have the same file exactly if they agree but for colons and underscores. A page is written exactly if the bounds of its constraints are one of the four usual ones, with the words for them.", "quantifier": "every schema, prefix map, configuration of labels and name of the schema", "why_tests_cant": "the pages depend on the order in which names are met, through numbers of nodes and merging of placeholders; the tests compare no pages of schemas with forward references and labels", "anchors": ["shapes_converter/src/shex_to_html/shex2html.rs", "shapes_converter/src/shex_to_html/html_schema.rs", "shapes_converter/src/shex_to_html/html_shape.rs", "shapes_converter/src/shex_to_html/name.rs", "shapes_converter/src/shex_to_html/cardinality.rs", "shapes_converter/src/shex_to_html/value_constraint.rs", "shapes_converter/src/shex_to_html/entry.rs"]}
{"id": "C145", "title": "Loading of data reads its inputs into the data there are, or replaces them", "statement": "A call for RDF inputs without replacement succeeds exactly if there is a base, the inputs can be opened and read one after another and the declarations of prefixes are well formed; then the graph is what these readings make of the RDF data there were (new ones if there were none or a property graph), a prefix stands for what the user declared last for it, else for what the readers found, and endpoints are unchanged. With replacement each input is read alone into new data and the last one is left. Property graphs are merged in turn. A call for an endpoint gives an empty graph with that endpoint alone in use, whatever there was. A call without base, with both inputs and an endpoint, with neither, or whose first input cannot be opened fails and changes nothing; any other failure leaves what was read before. A call panics exactly if it has no input, declares prefixes without mistakes and there are no RDF data.", "quantifier": "every state of the data, every list of inputs with whatever opening and reading them gives, every RDF reader and parser of property graphs, every configuration", "why_tests_cant": "the outcome depends on the state left by earlier calls, on the input at which reading stops and on combinations of eight optional arguments; the tests load one or two small inputs into nothing", "anchors": ["rudof_lib/src/api/data/implementations/load_data.rs", "rudof_lib/src/types/data.rs", "rudof_lib/src/utils/utils.rs: get_base_iri", "sparql_service/src/srdf_data/rdf_data.rs: with_rdf_data_config, use_endpoint, find_endpoint, merge_prefixes"]}
{"id": "C146", "title": "Texts given for inputs, prefixes and documents are taken as what they say", "statement": "A text given for an input is refused exactly if it is empty, starts as an address of the web and is none, or looks like the name of a file and there is none; else it stands for the standard input, the address, the file or itself. A name, a colon, spaces and an IRI in angle brackets declare this name for this IRI. In front of a document go the declarations, in its syntax and in order, of exactly those default prefixes that the document does not declare at the start of a line, if the document declares no prefix named as the keyword; without this condition a default that is not declared so is never held back.", "quantifier": "every text, every state of the file system, every map of default prefixes, every class of white space that has the line feed and none of the characters of the keywords", "why_tests_cant": "the expressions that recognise names of files and declarations run over arbitrary documents, where matches cross lines and overlap; the tests use one declaration in a line of its own", "anchors": ["rudof_lib/src/formats/input_spec.rs: from_str", "rudof_lib/src/utils/prefix_header.rs", "rudof_lib/src/api/data/implementations/load_data.rs: load_user_prefixes, normalize_endpoint_id"]}
{"id": "C147", "title": "Generated data are written completely, each triple once", "statement": "When generated data are written to several files and this succeeds, the files with the numbers from one on have parts of the triples, in order, none of them empty, at most as many as configured and all of the same size but for the last; each triple is in exactly one of them. Written to one file, that file has all triples. The list of files has the names of the parts that were written and their number, and files of earlier runs are gone. The statistics have the number of triples, of different subjects, predicates and objects and of members of each class. All other files are as before. If a part cannot be written there is an error, and the list and the statistics are as before.", "quantifier": "every list of different triples, state of the directory, configuration, number of processors and set of files that cannot be written", "why_tests_cant": "the sizes of parts come from divisions that leave fewer files than configured for some numbers only, and the list depends on files that were there before; the tests write once to an empty directory", "anchors": ["rudof_generate/src/output.rs", "rudof_generate/src/config.rs: get_optimal_file_count"]}
{"id": "C148", "title": "Patterns with flags match as in XPath", "statement": "A pattern that is a sequence of characters, dots and anchors, with flags among s, m, i, x and q, is accepted in SHACL and in ShEx if it is not too large, and a text matches it exactly if it does so by the rules of XPath for these flags; with q a text matches exactly if the pattern occurs in it, and flags other than i have no effect. The order of flags and their repetition do not matter. Other flags are refused, and the error names the first of them, whatever the pattern is.", "quantifier": "every such pattern, every text of flags, every text that is matched, every relation of characters that differ in case", "why_tests_cant": "the outcome depends on combinations of five flags with characters such as carriage returns, number signs and line feeds at the end; the tests have no patterns with flags but i", "anchors": ["rudof_rdf/src/rdf_core/utils/regex.rs", "shex_ast/src/ast/cond_kind.rs: check_pattern"]}
{"id": "C149", "title": "Schemas written as graphs (ShExR) are read as what they are", "statement": "A graph with one node of class sx:Schema whose list sx:shapes declares shape expressions is read by ShExRParser as the schema with those labels and expressions, whatever the order of hash sets; a construct that is not understood is an error. Of the code this holds for conjunctions and disjunctions, however nested, of shapes without contents and of node constraints which have a node kind or a set of IRIs but not both, in schemas without a start; it is false beyond: reading an expression never fails, negations, external shapes, references and datatypes are read as the constraint that all nodes meet, values beside a node kind, sets with literals and contents of shapes are lost, and expressions that contain themselves are read without end", "quantifier": "every graph, every schema it stands for, every order of hash sets, every conversion of literals to Booleans", "why_tests_cant": "the parser moves a focus that is never put back, and falls back silently; there are no tests of it, and tests could not cover all graphs", "anchors": ["shex_ast/src/shexr/shexr_parser.rs: ShExRParser, shape_expr, shape, shape_and, shape_or, node_constraint, parse_nodekind, parse_value_set", "rudof_rdf/src/rdf_core/parser/rdf_node_parser/combinators.rs: List, Or, Optional", "rudof_rdf/src/rdf_core/parser/rdf_node_parser/constructors/typing.rs", "rudof_rdf/src/rdf_core/vocabs/shexr.rs"]}
{"id": "C150", "title": "The container that builds an index sees the inputs and is given the arguments", "statement": "The text passed to the shell of the QLever container has as its words exactly the arguments of the index builder: name of the index, options of the configuration, then for each input in order its path, format and graph. In the container that path is that input and no other; only the directory of the index can be written; each directory is mounted once; there is an error exactly when two inputs are compressed or an uncompressed input has no directory or name. Of the code this holds when no text of the configuration and no graph name is empty and no directory of the host has a colon.", "quantifier": "every list of inputs, every configuration, every directory, every text as argument", "why_tests_cant": "tests compare a few commands as texts and never have a shell read them; quotes, blanks and shared directories in all combinations are beyond them", "anchors": ["rudof_rdf/src/rdf_impl/qlever/index_builder.rs: build_argv_and_binds, shell_join, shell_quote, safe_char", "rudof_rdf/src/rdf_impl/qlever/config.rs: InputFile, NativeFormat", "rudof_rdf/src/rdf_impl/qlever/cli_probe.rs: index_builder_cmd"]}
{"id": "C151", "title": "An index that is served holds the data of its inputs", "statement": "Whatever was loaded before, loading inputs serves an index of exactly these inputs with the contents they have at that time. Of the code this holds when no directory is given for the index, no file is written after it was loaded, inputs come from paths (no graph names) and the hash does not collide; inputs from paths give different bytes to the hash whenever they differ, and hashes differ whenever these bytes differ in one place.", "quantifier": "every history of loads and writes, every disk without indexes, every list of inputs", "why_tests_cant": "tests compare three fingerprints and never load twice; that no two lists of inputs are taken for each other is about all of them", "anchors": ["rudof_rdf/src/rdf_impl/qlever/index_builder.rs: fingerprint_inputs, Fnv1a, build_index, IndexHandle::is_built", "rudof_rdf/src/rdf_impl/qlever/config.rs: resolve_index_dir", "rudof_rdf/src/rdf_impl/qlever/graph_container.rs: from_paths"]}
{"id": "C152", "title": "A server that is dropped removes only what was made for it", "statement": "When a server is dropped, a file is removed exactly when removal was asked for, the index was not there before and the file is in the directory of the index; indexes in other directories are kept; a removed index is made again at the next load. Files that were there before are kept if no directory was given for the index; with a given directory they are not.", "quantifier": "every configuration, every list of inputs, every disk", "why_tests_cant": "tests do not drop servers, as these need Docker; what else is in the directory is never looked at", "anchors": ["rudof_rdf/src/rdf_impl/qlever/server.rs: Drop for QleverServer, mark_created_index", "rudof_rdf/src/rdf_impl/qlever/graph_container.rs: from_paths", "rudof_rdf/src/rdf_impl/qlever/config.rs: auto_delete_if_created, resolve_index_dir"]}
{"id": "C153", "title": "Files in any format are indexed with their own contents", "statement": "from_paths serves for each path, in order, the contents of its file, in the format that is given or that of its name, converted to N-Quads or N-Triples when QLever does not read that format; no file is changed but those written by conversion. Of the code this holds when no two files are converted to the same name, none is converted onto an input, and no format is given for compressed files.", "quantifier": "every list of paths, every format, every disk, every result of canonical paths and conversions", "why_tests_cant": "tests convert one file at a time; two files of the same name in different directories are not tried", "anchors": ["rudof_rdf/src/rdf_impl/qlever/graph_container.rs: from_paths, input_file_from_path, native_for_passthrough, guess_format, fingerprint_for_paths", "rudof_rdf/src/rdf_impl/qlever/index_builder.rs: convert_to_native", "rudof_rdf/src/rdf_impl/qlever/decompressor.rs: strip_compression_suffix", "rudof_rdf/src/rdf_impl/qlever/config.rs: NativeFormat::from_path"]}
{"id": "C154", "title": "A server of QLever runs with the settings it was given", "statement": "The words that a shell reads from the command of the server, read as flags with and without values, give back the program, the name of the index and each setting of the configuration, and no other flag; commands of different configurations are different. Of the code this holds when no text of the configuration is empty.", "quantifier": "every configuration of the server, every name of an index, both kinds of images", "why_tests_cant": "tests look for some substrings in one command; texts with quotes, blanks and signs of the shell are endless, and empty ones are not tried", "anchors": ["rudof_rdf/src/rdf_impl/qlever/server.rs: build_server_cmd, shell_join, shell_quote", "rudof_rdf/src/rdf_impl/qlever/cli_probe.rs: QleverCli::server_cmd"]}
{"id": "C155", "title": "Runs of the index builder are reported as they went", "statement": "A run is a success exactly when the container was made and started and ended with 0, and, with a compressed input, when feeding it did not fail and the decompressor ended with 0. If the container did not end with 0, the error has its exit code and all its output, whatever happened to the decompressor; if only the decompressor failed, the error has its status and the last 4096 bytes of its messages, in whatever pieces they were read. The container is removed after the run. Of the code this holds when the decompressor ends in time, and when the container could be started and fed.", "quantifier": "every sequence of answers of Docker, every output, every end of the decompressor", "why_tests_cant": "tests would need Docker failing at each step; decompressors that hang and messages in all possible pieces cannot be listed", "anchors": ["rudof_rdf/src/rdf_impl/qlever/index_builder.rs: run_one_shot, run_one_shot_with_stdin, inspect_post_exit, container_nonzero_exit"]}
{"id": "C156", "title": "An index of a compressed file has all its data", "statement": "Whatever happened at earlier loads, a load that succeeds serves an index of all the data in the compressed file. Of the code this holds when all loads before succeeded and their decompressors ended by themselves.", "quantifier": "every history of loads, every outcome of each of them", "why_tests_cant": "tests load a file once; damaged files followed by a second load are not tried", "anchors": ["rudof_rdf/src/rdf_impl/qlever/index_builder.rs: build_index, run_one_shot_with_stdin, IndexHandle::is_built"]}
{"id": "C157", "title": "Decompressors are found in order of preference, as a shell finds them", "statement": "For each family of compression the first of its programs that is in some directory of PATH is used, from the first directory that has it and with its own arguments; nothing is found exactly when no directory has any of them. The program is given by its absolute path; of the code this holds when all directories of PATH are absolute.", "quantifier": "every PATH, every set of executable files, every family", "why_tests_cant": "tests look at the one PATH of the machine they run on", "anchors": ["rudof_rdf/src/rdf_impl/qlever/decompressor.rs: decompressor_probe, find_on_path, DecompressorProbe::for_compression"]}
{"id": "C158", "title": "Limits of memory are read as the number of bytes they say", "statement": "A number with a unit, and blanks around and between them, is read as the number times the bytes of the unit (powers of 1024 for K, Ki, KiB and so on in either case of a single letter, powers of 1000 for KB, MB, GB, TB) when this is below 2^63, and is an error otherwise; texts with other characters are errors; limits that are not given are not set. All sizes that Docker takes are taken; of the code this fails for those in bytes with their unit.", "quantifier": "every number up to 2^53, every unit, every text", "why_tests_cant": "tests read eight texts; which suffix is taken for which text depends on the order in which twenty are tried", "anchors": ["rudof_rdf/src/rdf_impl/qlever/index_builder.rs: parse_size_to_bytes, host_config_with_limits"]}
{"id": "C159", "title": "Waiting for a server ends and says whether it answered", "statement": "Whatever the server answers and however long it takes, waiting ends after at most ten requests for each second of the timeout and two more; if no request takes more than five seconds it ends at most seven seconds after the timeout. It is a success exactly when some request that is made is answered with a success, and ends with the first such answer; it is in vain exactly when the first answer that comes after the timeout, and all before it, are none. There is at least one request, and the pauses grow from a tenth of a second to two seconds.", "quantifier": "every sequence of answers and of times they take, every timeout", "why_tests_cant": "tests have no server; slow ones and those that become ready at the last moment cannot be listed", "anchors": ["rudof_rdf/src/rdf_impl/qlever/server.rs: wait_until_responsive"]}
{"id": "C160", "title": "Data read from a stream is what is served", "statement": "For streams that are read one after the other, each is served with its own data, as quads if its format has graphs and as triples otherwise; it is an error exactly when it cannot be converted; one file is written into the directory of the index, none is left in the temporary directory, and no other is changed. Of the code the first holds when no directory is given for the index.", "quantifier": "every sequence of streams, formats and data", "why_tests_cant": "tests of streams need Docker; those there are read one stream into an empty directory", "anchors": ["rudof_rdf/src/rdf_impl/qlever/graph_container.rs: QleverGraphContainer::from_reader, source_ext, fingerprint_for_path"]}
{"id": "C161", "title": "Prefixes of what is loaded are those declared in it", "statement": "The prefix map after loading has, for each prefix, the last declaration in the files or the stream, each in the format it is read in, and nothing else. Of the code this holds for files that are not compressed, with canonical paths and formats that are guessed from their names.", "quantifier": "every list of files, every format, every set of declarations", "why_tests_cant": "tests look at one file; which of the ways to load loses its prefixes does not show in them", "anchors": ["rudof_rdf/src/rdf_impl/qlever/graph_container.rs: from_paths, from_reader, collect_prefixes_from_paths, harvest_prefixes"]}
{"id": "C162", "title": "Requests reach the MCP server only from allowed origins and with supported versions", "statement": "A request is given to the service exactly when its Origin is that of an allowed host, or absent and this is allowed, and its protocol version is absent or one of the supported ones; any other origin is answered with 403, and otherwise any other version with 400. No header makes the guards panic, and a URL is judged by its host. Of the code the first holds for origins as browsers write them: scheme, host, optional port.", "quantifier": "every Origin header, every version header, every configuration", "why_tests_cant": "tests try a handful of origins; texts that are no origins, but pass or panic, are not among them", "anchors": ["rudof_mcp/src/server/streamable_http/middleware.rs: origin_guard, protocol_version_guard, is_allowed_origin, extract_host_from_origin"]}
{"id": "C163", "title": "The log of the MCP server sends what is severe enough, within its limits", "statement": "Nothing is sent before a level is set; then exactly the messages at least as severe are candidates, and others take nothing from them. In the time of one window at most the allowed number is sent, and a message is dropped only if as many were sent in the time of a window before it. A text that is sent has at most 2048 characters and a mark, and is the message. Of the code: at most twice the allowed number; only the message is cut, and a field of the same name replaces it.", "quantifier": "every sequence of messages, levels and times, every limit", "why_tests_cant": "tests of the limiter send a few messages at once; bursts around the end of a window need a clock", "anchors": ["rudof_mcp/src/service/logging.rs: should_log, LogRateLimiter::should_emit, truncate_text, LogData::to_json, send_log"]}
{"id": "C164", "title": "A save of the state of the MCP server leaves the old state or the new one", "statement": "At every moment of a save, whatever fails, the file of the state is the old one or all of the new one; if Ok is returned it is the new one, which a load finds, and no other file is changed; if an error is returned it is the old one. Of the code this holds when there is room on the disk and the extension of the path is not tmp; without room, errors still leave the old one.", "quantifier": "every state, every path, every number of characters that the disk still takes, every failure", "why_tests_cant": "tests save to a disk with room; what a full disk leaves, and when, is not observed", "anchors": ["rudof_mcp/src/service/state.rs: save_state_to_path, load_state, load_state_from_path"]}
{"id": "C165", "title": "Listings of the MCP server can be followed to their end", "statement": "A client that asks for tools, prompts or resources page by page, each time with the cursor it was given, comes to an end and gets every item once and in order, in pages of twenty; without parameters it gets all at once. A cursor is refused exactly when it is no numeral or lies beyond the end; otherwise the page begins there.", "quantifier": "every list of items, every cursor", "why_tests_cant": "there are fewer than twenty of each, so that no test ever sees a second page", "anchors": ["rudof_mcp/src/service/pagination.rs: parse_cursor", "rudof_mcp/src/service/handlers.rs: list_tools, list_prompts", "rudof_mcp/src/service/resources/resources_impl.rs: list_resources"]}
{"id": "C166", "title": "A preview shows the beginning of the text, and says when it is not all", "statement": "What Markdown shows as the block of code of a preview is the text, or its first characters as many as are allowed; a notice follows exactly when some are missing. Of the code this holds exactly for texts in which no line closes a block.", "quantifier": "every text, every language tag without line breaks, every number of characters", "why_tests_cant": "tests look at short texts of data; those with lines of backticks are not tried", "anchors": ["rudof_mcp/src/service/tools/helpers.rs: code_block_preview"]}
{"id": "C167", "title": "Loading through the MCP server loads what it says", "statement": "A client that loads sources or an endpoint is told of success exactly when each source was read, one after the other, into the data there were, or the endpoint is taken; these are then the data, and the number of triples told is that of the triples. Of the code this holds for RDF sources; a call with an endpoint always fails and changes nothing.", "quantifier": "every request, every content of sources, every former data", "why_tests_cant": "tests load small sources; calls with an endpoint need a network and are not tested", "anchors": ["rudof_mcp/src/service/tools/data_tools_impl.rs: load_rdf_data_from_sources_impl", "rudof_mcp/src/service/mcp_service.rs: count_triples_in_ntriples", "rudof_lib/src/api/data/builders/load_data.rs: with_data, with_endpoint, execute"]}
{"id": "C168", "title": "What the MCP server keeps between runs is what it has", "statement": "When all calls that load data have ended, what is kept in the file of the state is the text of the data of the server, and a new server has the same graph. Of the code this holds when no call begins before the one before it has ended, and each succeeds or changes nothing.", "quantifier": "every sequence of calls of any number of clients, every order of their steps", "why_tests_cant": "tests make one call after the other; the order in which the saves of two clients happen cannot be forced", "anchors": ["rudof_mcp/src/service/tools/data_tools_impl.rs: load_rdf_data_from_sources_impl", "rudof_mcp/src/service/mcp_service.rs: persist_state_with, try_new"]}
{"id": "C169", "title": "The MCP server runs the queries that it can, and refuses the others unrun", "statement": "A request to execute a query is refused, with nothing changed, exactly if it has not one source, names no known format, is a DESCRIBE query, or is a SELECT query with a format other than the internal one; any other is run, and an answer has the query run, what was written, the format and its size in bytes. Of the code this holds for queries with white space around the keyword and no word before it that is a keyword.", "quantifier": "every request, every query, every engine and state", "why_tests_cant": "tests use queries that begin with the keyword; comments and unusual layout are not tried", "anchors": ["rudof_mcp/src/service/tools/query_tools_impl.rs: execute_sparql_query_impl", "rudof_mcp/src/service/tools/helpers.rs: sparql_query_type", "rudof_lib/src/formats/query.rs: ResultQueryFormat"]}
{"id": "C170", "title": "The query is taken out of the answer of the language model", "statement": "The query that is made of an answer of the language model is its block of code, or the whole answer if it has no block, without white space around. Of the code this holds if a block is the first thing in the answer.", "quantifier": "every answer of the language model", "why_tests_cant": "the answers of a language model cannot be enumerated, and the code that asks for them has no tests", "anchors": ["rudof_mcp/src/service/tools/query_tools_impl.rs: generate_sparql_from_natural_language"]}
{"id": "C171", "title": "The shape map of a validation is the one that was asked for", "statement": "A validation with ShEx through the MCP server uses the shape map that is given, or the one made of the node and the shape, where IRIs stand in brackets, given so or not; this is read as text, never as a file or from the network, and the summary says what was made. Of the code this holds without strict IRIs, for nodes that are no literals with an IRI in them.", "quantifier": "every node, shape and shape map, every state of files", "why_tests_cant": "tests use a few IRIs and prefixed names; that a node in strict mode is fetched shows only with a network", "anchors": ["rudof_mcp/src/service/tools/shex_validate_tools_impl.rs: validate_shex_impl, normalize_iri_str", "rudof_lib/src/formats/input_spec.rs: from_str"]}
{"id": "C172", "title": "The arcs of a node that the MCP server gives are those that are shown", "statement": "Of the text in which the arcs of a node are shown, the MCP server reads each arc, out and in, in order, with its predicate, its other node and its depth, and nothing else; it counts the different predicates and nodes. Of the code this holds for predicates and nodes that are on one line and have no signs of trees; the depth holds if no arc above is the last of its siblings.", "quantifier": "every node, every tree of arcs", "why_tests_cant": "no test reads what the library writes, and the trees that there may be are without number", "anchors": ["rudof_mcp/src/service/tools/node_tools_impl.rs: parse_node_info_results, parse_arc_line, tree_depth", "rudof_lib/src/api/data/implementations/show_node_info.rs: write_node_information, create_outgoing_glyphs"]}
