# Formal model of rudof: design

Properties are in `properties.jsonl` (C01, C02, ...), the claim-to-theorem map is in
`MANIFEST.json`, the Lean development is in `lean/Verif/`, and the log of mutation
experiments is in `seeded/LOG.jsonl`.

## Method

Every modelled Rust function is written as a small total Lean function. A comment on
each definition cites the file and lines in `/repo` it follows and states where it is
simplified. Each property is stated against a separate specification (a set, a
relation, a language, a fixed point), never against a helper of the model. Proofs are
by induction or invariant; nothing is bounded.

Layout (one directory per subsystem):

| directory | subject | code modelled |
|---|---|---|
| `Verif/Rbe` | regular bag expressions: derivatives, intervals, feasibility, tables, diagnosis | `rbe/src`: `rbe.rs`, `rbe_struct.rs`, `rbe_table.rs`, `rbe_cond.rs`, `rbe_cond_matcher.rs`, `feasibility.rs`, `interval.rs`, `cardinality.rs`, `max.rs`, `pending.rs`, `match_cond.rs`, `empty_iter.rs`, `deriv_n.rs`, `deriv_error.rs` |
| `Verif/Part` | enumerators of partitions of a neighbourhood | `shex_validation/src`: `k_partitions.rs`, `class_partitions.rs` |
| `Verif/Shex` | recursive validation, boolean shape expressions, EXTENDS, dependency and inheritance graphs | `shex_validation/src/engine.rs`; `shex_ast/src/ir`: `shape.rs`, `shape_expr.rs`, `schema_ir.rs` (references, dependencies, descendants), `dependency_graph.rs`, `inheritance_graph.rs`, `extend_alternative.rs`, `semantic_action_context.rs` |
| `Verif/Prefix` | prefix maps, relative IRIs, IRI registry | `prefixmap/src/prefix_map.rs`, `rudof_iri/src/iri/iris.rs`, the IRI registries |
| `Verif/Value` | value sets, node constraints, facets | `shex_ast/src/ir/value_set_value.rs`, `value_set.rs`, `object_value.rs`, `exclusion.rs`, `ast2ir.rs` (facets), `ast/xs_facet.rs`, `ast/node_kind.rs`, `node.rs` |
| `Verif/Shapemap` | result shape maps | `shex_ast/src/shapemap/{result_shape_map,validation_status,conformant_info,non_conformant_info}.rs` |
| `Verif/Lit` | literals, numbers, lexical forms, serialised bounds | `rudof_rdf/src/rdf_core/term/literal/{numeric_literal,literal}.rs`, `rbe/src/{max,min}.rs` |
| `Verif/Shacl` | property paths, engine with cache and parallel levels, dependency graph, targets, constraints, reports; constraints and targets in the SPARQL mode (C125, C126), texts in queries and SPARQL-based constraints (C127, C128) | `rudof_rdf/src/rdf_core/{shacl_path,neighs_rdf}.rs`; `shacl/src`: `validator/{engine,processor,cache,index,constraints,report}`, `ir/{schema,shape,node_shape,component,dg}` |
| `Verif/Pg` | property graph schemas | `pgschema/src`: `value.rs`, `card.rs`, `boolean_expr.rs`, `value_type.rs`, `record*.rs`, `formal_base_type.rs`, `property_value_spec.rs`, `label_property_spec.rs`, `edge_type.rs`, `pgs.rs`, `pg.rs`, `node.rs`, `type_map.rs`, `parser/pgs_builder.rs`, `parser/pg_builder.rs`, `parser/map_builder.rs` |
| `Verif/Comp` | compiler of ShEx schemas: imports, labels, inclusions, shape and triple expressions | `shex_ast/src/ir/ast2ir.rs`, `schema_ir.rs` (labels, indices); `shex_ast/src/ast`: `shape_expr.rs`, `shape.rs`, `triple_expr.rs`, `shape_decl.rs`, `schema.rs`, labels |
| `Verif/Tap` | DCTAP reader and its conversion to ShEx | `dctap/src`: `tap_reader.rs`, `tap_reader_builder.rs`, `tap_reader_state.rs`, `tap_headers.rs`, `placeholder_resolver.rs`, `reader_range.rs`; `shapes_converter/src/tap_to_shex` |
| `Verif/Shexc` | reader of the compact syntax of ShEx: terminals, grammar, statements, resolution of names; printer; shape maps: reader, printer, selection of nodes | `shex_ast/src/compact`: `grammar.rs`, `grammar_structs.rs`, `shex_grammar.rs`, `shex_parser.rs`, `compact_printer.rs`, `shex_compact_printer.rs`, `shapemap_grammar.rs`, `shapemap_parser.rs`, `shapemap_compact_printer.rs`; `shex_ast/src/shapemap`: `query_shape_map.rs`, `association.rs`, `node_selector.rs`, `shape_selector.rs`; `deref` in `shex_ast/src/ast` and `prefixmap/src/iri_ref.rs` |
| `Verif/Conv` | conversion of SHACL shapes to ShEx; the meaning of both for the constraints that are converted (C113) |
| `Verif/Mat` | graphs made from a ShEx schema and a map; conformance of the graphs (C114) |
| `Verif/Cmp` | comparison of two shapes and the models they are compared by (C115) |
| `Verif/Rd` | parsers of RDF nodes with a focus: combinators, lists, SHACL paths (C116, C117); the reader of SHACL shapes from graphs: components, targets, node and property shapes, candidates, the whole schema (C118, C119); the writer of SHACL schemas to graphs (C120) |
| `Verif/Store` | the graph in memory: its operations, reading, queries (C121); the arcs that graphs, SPARQL services with their cache and `RdfData` give to the ShEx engine (C122) |
| `Verif/Act` | semantic actions: the extensions Test and Map, the registry, constraints with actions, actions at the start (C123); resolvers of EXTERNAL shapes (C124) |
| `Verif/Gen` | data made from schemas: the order of shapes, numbers of values, links and entities, the triples, unified constraints, the metrics, texts of values and for patterns (C129–C135) | `rudof_generate/src`: `shape_processing.rs`, `parallel_generation.rs`, `converters/`, `unified_constraints.rs`, `conformance_metrics.rs`, `field_generators/`, a part of `lib.rs` |
| `Verif/Shexj` | schemas as JSON: writing, reading and what comes back (C136) | `shex_ast/src/ast`: `Serialize` and `Deserialize` of `schema.rs`, `shape_decl.rs`, `shape_expr.rs`, `shape.rs`, `triple_expr.rs`, `node_constraint.rs`, `value_set_value.rs`, `object_value.rs`, `exclusion.rs`, `annotation.rs`, `sem_act.rs`, labels and stems; `prefixmap/src/iri/visitor.rs` |
| `Verif/Select` | the SPARQL query made from a ShEx schema (C137) | `shapes_converter/src/shex_to_sparql`; searches for shapes in `shex_ast/src/ast/schema.rs` |
| `Verif/Uml` | the class diagram made from a ShEx schema: nodes, components, links, extensions, neighbours (C138). Not modelled: the text of PlantUML other than cardinalities | `shapes_converter/src/shex_to_uml`; `find_annotation` in `shapes_converter/src/lib.rs` |
| `Verif/Cache` | compiled schemas saved to a file: the bytes written and read for every part, the envelope (C139). Simplified: graphs of `petgraph` are lists of nodes and edges, numbers have no width. Parameters: what is a valid IRI, decimal and date-time | `shex_ast/src/ir/cache.rs`; `write`, `read` in `shex_ast/src/ir/schema_ir.rs`; the (de)serializers of the types of `shex_ast/src/ir`, `rbe`, `prefixmap`, `rudof_iri` and of literals; of `postcard`, its format |
| `Verif/Inspect` | information about a node: arcs collected to a depth, the trees printed, the text of the node (C140). Simplified: messages of errors, colours and the characters that draw trees are left out. Parameters: what is a subject, how predicates are read, the order of predicates, how terms are shown, the order in which sets are iterated | `rudof_lib/src/api/data/implementations/show_node_info.rs`; `normalize_iri_str` in `rudof_lib/src/utils/utils.rs`; `NodeInspectionMode` |
| `Verif/Visual` | drawings of RDF graphs: nodes, numbers, edges, counts, triple terms and the PlantUML text (C141). Simplified: a literal that was read is not changed by reading it again; the style is a text. Parameters: how IRIs, blank nodes and literals are shown, how literals are read, the order of iteration | `rudof_rdf/src/rdf_core/visualizer/visual_rdf_graph.rs`, `visual_rdf_node.rs`, `visual_rdf_edge.rs`, `utils/usage_count.rs` |
| `Verif/Sd` | service descriptions of SPARQL endpoints read from a graph, and the metadata made from them (C142). Simplified: fields that are never read are left out; texts of errors are not modelled. Parameters: integers and texts of literals, the order of iteration | `sparql_service/src/service_description_parser.rs`, `service_description.rs` (`service2mie`), `graph_description.rs`, `named_graph_description.rs`, `graph_collection.rs`, `dataset.rs`, `class_partition.rs`, `property_partition.rs`, `feature.rs`, `sparql_result_format.rs`, `service_description_vocab.rs`, `mie/src/mie.rs` (`add_*`) |
| `Verif/Answers` | answers to SPARQL queries: CSV, tables, JSON, several sources, formats, kinds of queries (C143). Simplified: writing to the destination does not fail; a graph is loaded. The writer of the crate `csv` (default settings) is modelled from its documentation. Parameters: terms, their texts and conversion, literals, the drawing of a grid, the writing of JSON, the answers of sources | `rudof_rdf/src/rdf_core/query/query_solution.rs`, `query_solutions.rs`, `var_name.rs`, `variable_solution_index.rs`, `mod.rs`, `sparql_service/src/srdf_data/rdf_data.rs` (`query_select`, `query_ask`, `query_construct`), `rudof_lib/src/api/query/implementations/serialize_query_results.rs`, `run_query.rs` |
| `Verif/Html` | HTML pages of ShEx schemas: names, pages, placeholders, merging, landing page, files, words for cardinalities (C144). Names, labels and bounds are those of `Verif/Uml`. Simplified: no pictures, templates are not rendered, files are texts. Parameters: those of `Verif/Uml` and the name of the schema | `shapes_converter/src/shex_to_html/shex2html.rs`, `html_schema.rs`, `html_shape.rs`, `name.rs`, `cardinality.rs`, `value_constraint.rs`, `entry.rs` |
| `Verif/Load` | loading of data: inputs merged or replacing, property graphs, endpoints, what failures leave, panics (C145); texts for inputs, declarations of prefixes by users, declarations put in front of documents (C146). Prefix maps are those of `Verif/Prefix`. Simplified: no messages of errors; an input carries what opening and reading it gives; the QLever loader is not modelled. Parameters: the RDF readers, the parser and union of property graphs, IRIs, white space, the file system, which endpoints can be used. | `rudof_lib/src/api/data/implementations/load_data.rs`, `rudof_lib/src/types/data.rs`, `rudof_lib/src/formats/input_spec.rs` (`from_str`), `rudof_lib/src/utils/prefix_header.rs`, `rudof_lib/src/utils/utils.rs` (`get_base_iri`), `sparql_service/src/srdf_data/rdf_data.rs` (endpoints, prefixes) |
| `Verif/Gen/Output` | files to which generated data are written: parts, list of files, statistics, failures (C147). Simplified: all files are in one directory and have names that are text; a file is written or not as a whole; texts of literals are those shown; times, metrics and compression are left out. | `rudof_generate/src/output.rs`, `config.rs` |
| `Verif/Regex` | regular expressions with flags in SHACL and ShEx (C148). The crate `regex` is modelled from its documentation for sequences of characters, dots and anchors, with its flags, white space and comments; variants of case and the limit for sizes are parameters. The rules of XPath are the specification. | `regex.rs`, `cond_kind.rs` (`check_pattern`) |
| `Verif/Shexr` | reader of ShEx schemas written as graphs (C149), on the parsers of nodes of `Verif/Rd`. Not modelled: prefix map, base, triple terms, stems, facets and triple expressions (never read) | `shex_ast/src/shexr/shexr_parser.rs`; `List`, `Or`, `Optional` of `combinators.rs`; `constructors/typing.rs` |
| `Verif/Qlever` | command and mounts of the container that builds an index of QLever (C150, `Command*`); fingerprints, kept indexes and what dropping a server removes (C151, C152, `Store*`); inputs from paths and conversion (C153, `Convert*`); command of the server (C154, `Serve*`), read by flags in `readFlags`; runs of the builder and loads of compressed files (C155, C156, `OneShot*`), where what Docker, the container and the decompressor do is a `World`; finding decompressors (C157, `Probe*`); limits of memory (C158, `Size*`), where `f64` is given by `Lib` with the laws `Lib.Std`; waiting for a server (C159, `Wait*`); streams and prefixes (C160, C161, `Reader*`), where what `oxrdfio` finds as prefixes is a parameter. Words of a shell and texts of mounts are specified by `shellWords` and `Mounted`. Not modelled: Docker, the shell, decompressors, what the server does, `oxrdfio`; the disk is a map of files and a map of finished indexes, and errors of the command are left out of `Store` | `rudof_rdf/src/rdf_impl/qlever/index_builder.rs` 57-62, 67-135, 138-289, 292-574, 597-736; `config.rs` 281-293, 356-364; `graph_container.rs` 66-105, 127-146, 425-606; `server.rs` 32-51, 157-218, 221-247, 261-272; `cli_probe.rs` 38-43; `decompressor.rs` 22-145, 149-202, 206-228 |
| `Verif/Mcp` | guards of the MCP server over HTTP (C162, `Origin*`), where what reads addresses is given by `Lib`; its log (C163, `Logging*`); the file of its state (C164, `State*`); its listings and previews (C165, C166, `Pages*`); its tool that loads data, on the loader of `Verif/Load`, and what is kept of them (C167, C168, `Loading*`); its tool that executes queries, where `rudof_lib` is given by `Engine` and Unicode by `Lib` (C169, C170, `Asking*`); the shape map of its tool that validates with ShEx (C171, `Mapping*`); what its tool for nodes reads out of text (C172, `Arcs*`), where how `termtree` 0.4 writes is a part of the specification; its source is not in the sandbox |

`Model*.lean` (in `Shacl` and `Pg`: the files named after their subject) holds the code
model, `*Spec*.lean` the specification, `*Lemmas*.lean` helpers, and `*Props*.lean` the
property theorems with their examples.

## Trusted base

* Lean 4.33.0's kernel.
* Axioms: only `propext`, `Classical.choice` and `Quot.sound`; which theorem uses which
  is listed at the end of this section. No axiom is added, and there is no `sorry`, `admit`,
  `native_decide` or `bv_decide`.
* The faithfulness of the hand-written model to the cited Rust lines.

### Simplifications that hold throughout

* `usize` and other machine integers are unbounded naturals or integers, except where a
  property is about their range (C47, C48, C49, C57, C59, C64, C71, C73).
* Hash maps and hash sets are lists without duplicates, `AList`s or finite sets. Where the
  order of iteration can be observed it is a parameter that the theorems quantify over
  (C18, C21, C24, C37), or the theorems speak of membership and multisets only.
* Error payloads and log output are dropped unless a property is about them.
* `Display` and pretty printing are not modelled, except for schemas and shape maps in
  compact syntax (C108, C111), without colours, and literals in queries (C112).
* Recursion in Rust that may not return is modelled with fuel, or as a relation. A theorem
  that says "terminates" gives the fuel that suffices; one that says "never returns" shows
  that no fuel suffices. A panic (`todo!`, `unwrap`, index out of range) is a result of its
  own (`none` or a constructor), not a default value.

### Outside code, taken as parameters or by contract

* Regular expressions (`regex`, `srx`): an arbitrary matching function (`Ext`).
* `rust_decimal`: exact decimals; a conversion from an integer succeeds below 2^96.
* `f64`: an abstract type with the order of its finite values; NaN and infinities apart.
* `oxilangtag`: normal form is a change of case, the same for tags that differ in case only
  (C60, C75).
* `nom`: the combinators in use, by their documented contracts, over lists of characters (C104, C105, C109).
* The query engine over the data: any function from query texts to answers; for the nodes of triple patterns it is
  assumed to answer queries with one triple pattern (C112).
* `colored`: any function on texts; the round trip is for the one that adds no colours (C111).
* Conversions of the literals of a shapes graph to numbers, Booleans, texts and language tags: any functions (C118, C119).
* `pretty`: a document is rendered as one of its layouts, with a space or a line break with any indentation at each `line`; the
  theorems hold for each (C108).
* `oxiri`: which strings are IRIs and how one is resolved against a base are parameters (C105).
* `oxsdatatypes` dates: equality and order are parameters.
* `petgraph`: `is_cyclic_directed`, `tarjan_scc` and `all_simple_paths` by their documented
  contracts (C24, C68, C69).
* `rayon`: any interleaving of the steps of the workers (C37).
* The RDF store: a finite list of triples with membership queries.
* The parsers of RDF syntaxes (`oxttl`, `oxrdfxml`, `oxjsonld`): the results they deliver one after the other (C121). The evaluation
  of queries over the SPARQL store: any function of its triples (C121).
* The store that answers the queries of the SPARQL mode of SHACL: as SPARQL 1.1 says about these queries, with any operators on
  literals and any regular expressions; the queries are trees, of which the code writes the texts (C125, C126).
* A SPARQL service: its triples, which may match a pattern with variables, and whether it answers (C122).

### Not modelled

* Parsers and serialisers of every syntax but ShExC and ShExJ (Turtle,
  PGSchema grammar); for ShExJ the text of JSON values is outside. The models of those start from syntax trees; SHACL in RDF is read from and written to triples. For DCTAP the csv and calamine crates
  are outside, and everything after the records they deliver is modelled.
* Imports over the network.
* Node expressions, rules and functions of SHACL.
* The protocol of SPARQL endpoints, the command line, the bindings, and the MCP server but for its guards, its log, its state, its listings, its previews and its tools that load data and execute queries, the shape map of the one that validates with ShEx, and what the one for nodes reads out of text.
* Triple terms and reifier validation.

### Axioms of each theorem

<!-- axioms begin -->
* no axioms (7 theorems): `Prefix.C27_refuted`, `Gen.C132_flags_refuted`, `Gen.C132_groups_refuted`, `Uml.C138_cardinality_refuted`, `Answers.C143_describe_refuted`, `Mcp.Log.C163_window_refuted`, `Mcp.State.C164_shared_refuted`.
* `propext` (31 theorems): `Rbe.C15_report_iff_rejected`, `Part.C17_drain_complete`, `Shex.C24_refuted_equal_contents`, `Shex.C24_refuted_reference_with_action`, `Shex.C24_refuted_extends`, `Prefix.C56_relative`, `Lit.C47_large_differ`, `Lit.C48_refuted`, `Lit.C49_refuted`, `Lit.C61_refuted`, `Lit.C62_refuted`, `Lit.C62_equal_but_different`, `Shapemap.C50_refuted`, `Shacl.C36_refuted`, `Shacl.C37_refuted`, `Pg.C46_intersection_refuted`, `Pg.C46_range_intersection_refuted`, `Pg.C79_conditions_refuted`, `Rd.C116_refuted`, `Rd.C120_refuted`, `Store.C121_base`, `Store.C121_atomic_refuted`, `Store.C122_closed_refuted`, `Gen.C133_kinds`, `Visual.C141_distinct`, `Sd.C142_classes_refuted`, `Sd.C142_panic_refuted`, `Answers.C143_convert`, `Answers.C143_run`, `Qlever.C150_words_partial`, `Qlever.C151_stream`.
* `Quot.sound`, `propext` (99 theorems): `Rbe.C09_refuted`, `Rbe.C10_refuted_shared_symbols`, `Shex.C21_refuted_reference_with_action`, `Shex.C22_cyclic_extends_diverges`, `Shex.C25_refuted`, `Shex.C51_inheritance_closure`, `Shex.C26_alternatives_nonempty`, `Shex.C26_empty_disjunction_panics`, `Prefix.C27_turtle_iff`, `Prefix.C27_whole_never_returns`, `Prefix.C28_longest_namespace`, `Prefix.C28_length`, `Prefix.C29_last_declaration`, `Prefix.C29_remove_and_merge`, `Prefix.C56_equal_without_fragment`, `Lit.C61_term_equality_partial`, `Shacl.C66_literal_refuted`, `Shacl.C69_negative_cycles_partial`, `Shacl.C69_refuted`, `Shacl.C69_numbering_refuted`, `Pg.C79_conditions_partial`, `Pg.C83_duplicates_refuted`, `Pg.C84_built`, `Pg.C85_add_node_type`, `Pg.C87_type_map`, `Tap.C92_sheet_partial`, `Tap.C92_sheet_shift`, `Tap.C93_names`, `Tap.C93_begins`, `Tap.C95_succeeds_iff`, `Tap.C95_values`, `Tap.C95_values_partial`, `Comp.C100_depth_irrelevant`, `Shexc.C106_integers_partial`, `Cmp.C115_compare`, `Cmp.C115_symmetric`, `Rd.C118_refuted`, `Rd.C119_refuted`, `Rd.C120_panics`, `Store.C121_contents`, `Store.C121_matching`, `Store.C121_base_failed`, `Store.C121_atomic_partial`, `Store.C121_snapshot`, `Store.C121_queries_refuted`, `Store.C121_queries_partial`, `Store.C121_blank_nodes`, `Store.C121_fresh_refuted`, `Store.C121_fresh_partial`, `Store.C122_fresh_answer_refuted`, `Store.C122_blank_refuted`, `Store.C122_triples`, `Store.C122_remainder_refuted`, `Store.C122_engine_data_partial`, `Store.C122_closed_partial`, `Act.C123_registry`, `Act.C123_constraint`, `Act.C123_matched_partial`, `Act.C123_not_attached`, `Act.C124_rewriting`, `Act.C124_dispatch`, `Act.C124_latest`, `Act.C124_named`, `Shacl.C127_terms`, `Shacl.C127_paths_refuted`, `Gen.C132_bounds_refuted`, `Gen.C132_values_refuted`, `Gen.C132_iris_refuted`, `Gen.C132_kinds`, `Gen.C132_references`, `Cache.C139_struct`, `Inspect.C140_made`, `Inspect.C140_incoming_refuted`, `Visual.C141_asserted_refuted`, `Visual.C141_iri_refuted`, `Sd.C142_mie`, `Answers.C143_select`, `Answers.C143_ask`, `Answers.C143_construct`, `Gen.C147_count`, `Shexr.C149_no_errors`, `Qlever.C151_served_partial`, `Qlever.C151_one_byte`, `Qlever.C151_text`, `Qlever.C151_reused`, `Qlever.C151_directory_refuted`, `Qlever.C151_written_refuted`, `Qlever.C151_graph_refuted`, `Qlever.C152_indexes`, `Qlever.C152_made_again`, `Mcp.Log.C163_levels`, `Mcp.Log.C163_window_partial`, `Mcp.Log.C163_dropped`, `Mcp.State.C164_saved_partial`, `Mcp.State.C164_kept_partial`, `Mcp.State.C164_lost_partial`, `Mcp.State.C164_small`, `Mcp.Loading.C167_count`, `Mcp.Arcs.C172_distinct`.
* `Classical.choice`, `Quot.sound`, `propext` (632 theorems): `Rbe.C01_deriv_matches_iff_lang`, `Rbe.C02_refuted`, `Rbe.C02_refuted_each_kind`, `Rbe.C02_deriv_matches_iff_lang_partial`, `Rbe.C02_accepted`, `Rbe.C03_deriv_order_irrelevant`, `Rbe.C09_nullable_iff_partial`, `Rbe.C09_cond_nullable_iff`, `Rbe.C04_interval_matches_iff_lang`, `Rbe.C05_interval_sound`, `Rbe.C06_refuted`, `Rbe.C06_interval_complete_partial`, `Rbe.C07_algorithms_agree`, `Rbe.C08_flag_truthful`, `Rbe.C10_infeasible_no_member`, `Rbe.C10_single_occurrence`, `Rbe.C10_zero_lower`, `Rbe.C14_refuted`, `Rbe.C14_order_refuted`, `Rbe.C14_open_ignores_foreign_partial`, `Rbe.C14_foreign_irrelevant_partial`, `Rbe.C14_interval_ignores_foreign`, `Rbe.C11_precheck_never_hides_match`, `Rbe.C12_every_assignment_found`, `Rbe.C12_success_from_assignment_partial`, `Rbe.C12_success_iff`, `Rbe.C12_refuted`, `Rbe.C13_error_item_excludes_success`, `Rbe.C13_error_item_iff`, `Rbe.C15_violations_true`, `Rbe.C15_violations_complete`, `Rbe.C15_conjunction_explained`, `Rbe.C15_table_violations_true`, `Rbe.C16_refuted`, `Rbe.C16_code_language`, `Rbe.C16_star_means_zero_or_two`, `Rbe.C16_conditioned_match_partial`, `Part.C17_kpartitions_exact`, `Part.C18_class_partitions`, `Part.C19_every_arrangement_once`, `Part.C19_step_is_successor`, `Shex.C20_prove_iff_greatest`, `Shex.C20_prove_iff_stratified`, `Shex.C20_schema_greatest`, `Shex.C20_schema_stratified`, `Shex.C20_refuted_reference_with_action`, `Shex.C21_history_independent`, `Shex.C21_queries_total`, `Shex.C21_schema_history_independent`, `Shex.C22_terminates_partial`, `Shex.C22_depth_at_most_pairs`, `Shex.C22_schema_terminates_partial`, `Shex.C23_boolean_combinations`, `Shex.C25_check_iff_meaning`, `Shex.C25_closed`, `Shex.C25_extra_tolerated_partial`, `Shex.C25_matching_value_assigned`, `Shex.C24_reported_is_cycle`, `Shex.C24_reported_schema`, `Shex.C24_negative_cycle_iff_partial`, `Shex.C24_refuted_both_polarities`, `Shex.C24_refuted_not_reported`, `Shex.C26_every_combination`, `Shex.C26_merge`, `Shex.C52_partition_search`, `Shex.C52_several_alternatives`, `Shex.C52_single_alternative_partial`, `Shex.C52_refuted_overlap`, `Shex.C52_refuted_conjunction`, `Shex.C52_any_constraint`, `Shex.C52_conjunction_parents_partial`, `Shex.C52_refuted_ignored`, `Shex.C53_alternatives`, `Shex.C53_constraints`, `Shex.C54_hierarchy_greatest`, `Shex.C54_hierarchy_stratified`, `Prefix.C27_round_trip_iff_partial`, `Prefix.C27_prefixed_name_iff`, `Prefix.C29_equality`, `Prefix.C30_indices_stable`, `Prefix.C55_serialisation`, `Lit.C47_equivalence_and_hash`, `Lit.C47_by_value`, `Lit.C48_always`, `Lit.C48_convertible_partial`, `Lit.C49_round_trip_partial`, `Lit.C57_fraction_digits`, `Lit.C57_total_digits_partial`, `Lit.C57_refuted`, `Lit.C58_matching`, `Lit.C59_integer_texts_partial`, `Lit.C59_refuted`, `Lit.C60_conversion`, `Lit.C60_texts`, `Lit.C62_comparison_partial`, `Lit.C62_meaning`, `Value.C31_value_sets_partial`, `Value.C31_refuted`, `Value.C32_language_stems`, `Value.C63_node_constraints`, `Value.C64_numeric_facets_partial`, `Value.C64_refuted`, `Value.C65_length_facets_partial`, `Value.C65_refuted`, `Shapemap.C50_result_map_partial`, `Shacl.C33_paths_partial`, `Shacl.C33_paths_without_literals`, `Shacl.C33_refuted`, `Shacl.C34_terminates`, `Shacl.C35_levels`, `Shacl.C35_target_levels`, `Shacl.C36_cached_results_partial`, `Shacl.C36_refuted_objects`, `Shacl.C37_schedules_partial`, `Shacl.C37_groupings_partial`, `Shacl.C37_progress_partial`, `Shacl.C38_and`, `Shacl.C38_or`, `Shacl.C38_not`, `Shacl.C38_xone`, `Shacl.C38_node`, `Shacl.C38_qualified`, `Shacl.C38_failures`, `Shacl.C66_meaning_partial`, `Shacl.C66_paths_partial`, `Shacl.C66_value_nodes`, `Shacl.C67_validation_terminates`, `Shacl.C67_accepted_terminates_partial`, `Shacl.C67_refuted`, `Shacl.C68_recursion_rejected`, `Shacl.C39_report_equality_partial`, `Shacl.C39_refuted`, `Shacl.C40_class_targets_partial`, `Shacl.C40_shallow_partial`, `Shacl.C40_refuted`, `Shacl.C41_closed_partial`, `Shacl.C41_equals_partial`, `Shacl.C41_disjoint_partial`, `Shacl.C41_less_than_partial`, `Shacl.C41_closed_refuted`, `Shacl.C41_literal_focus_refuted`, `Shacl.C41_disjoint_refuted`, `Shacl.C41_less_than_refuted`, `Shacl.C70_focus_nodes`, `Shacl.C71_ranges_partial`, `Shacl.C71_refuted`, `Shacl.C72_counts_and_constants_partial`, `Shacl.C72_refuted`, `Shacl.C73_node_kinds`, `Shacl.C73_datatypes_partial`, `Shacl.C73_refuted`, `Shacl.C74_patterns`, `Shacl.C74_lengths_partial`, `Shacl.C74_refuted`, `Shacl.C75_languages`, `Shacl.C76_class_partial`, `Shacl.C76_refuted`, `Shacl.C77_equal_reports_partial`, `Shacl.C77_counts`, `Pg.C42_record_conformance`, `Pg.C42_open_records`, `Pg.C43_never_open`, `Pg.C43_open_refuted`, `Pg.C43_open_partial`, `Pg.C44_union_refuted`, `Pg.C44_union_partial`, `Pg.C45_type_map`, `Pg.C45_missing`, `Pg.C46_intersection_partial`, `Pg.C78_value_types`, `Pg.C80_properties_refuted`, `Pg.C80_properties_partial`, `Pg.C81_node_types_refuted`, `Pg.C81_node_types_partial`, `Pg.C81_no_label`, `Pg.C81_cyclic`, `Pg.C82_edges`, `Pg.C82_edge_errors`, `Pg.C83_expected`, `Pg.C84_merge`, `Pg.C84_edge_names`, `Pg.C84_shadowed_refuted`, `Pg.C85_add_edge_type`, `Pg.C86_third_type_refuted`, `Pg.C86_unlabelled_refuted`, `Pg.C86_escape_refuted`, `Pg.C86_schema_text_partial`, `Pg.C86_edge_text_partial`, `Pg.C86_undeclared`, `Pg.C86_accepted`, `Pg.C86_edges_kept`, `Pg.C86_graph_type_panics`, `Pg.C87_edge_ends_refuted`, `Pg.C87_nodes_partial`, `Pg.C87_edges_partial`, `Pg.C87_accepted`, `Rbe.C88_queries`, `Rbe.C88_iterators`, `Rbe.C88_pop_partial`, `Rbe.C88_drain_partial`, `Rbe.C88_pop_refuted`, `Tap.C89_tables_partial`, `Tap.C89_refuted`, `Tap.C90_column_order`, `Tap.C90_header_case`, `Tap.C91_statements`, `Tap.C91_generated_distinct_partial`, `Tap.C91_refuted`, `Tap.C92_refuted`, `Tap.C92_lines`, `Tap.C93_absolute_refuted`, `Tap.C94_cardinality`, `Tap.C94_missing_refuted`, `Tap.C95_declarations`, `Tap.C95_datatype_refuted`, `Tap.C95_nodetype_refuted`, `Tap.C95_delimiter_refuted`, `Value.C96_pattern_facet`, `Comp.C97_typings`, `Comp.C97_determined`, `Comp.C97_labels`, `Comp.C98_greatest`, `Comp.C99_validate`, `Comp.C99_validate_stratified`, `Comp.C100_compiles_iff`, `Comp.C100_compiled_well_formed`, `Comp.C101_refuted`, `Comp.C101_compile_ends_partial`, `Comp.C102_imports_and_labels`, `Comp.C103_start_refuted`, `Comp.C103_value_refuted`, `Comp.C103_import_refuted`, `Comp.C103_well_formed_partial`, `Shexc.C104_ends`, `Shexc.C104_no_panic_partial`, `Shexc.C104_refuted`, `Shexc.C105_names_partial`, `Shexc.C105_start_partial`, `Shexc.C105_unresolved_partial`, `Shexc.C105_refuted`, `Shexc.C106_strings_partial`, `Shexc.C106_names_partial`, `Shexc.C106_labels_partial`, `Shexc.C106_literals_partial`, `Shexc.C106_numbers_partial`, `Shexc.C106_languages`, `Shexc.C106_patterns_partial`, `Shexc.C106_cardinalities_partial`, `Shexc.C106_code`, `Shexc.C106_gaps`, `Shexc.C106_refuted`, `Shexc.C107_statements_partial`, `Shexc.C107_expressions_partial`, `Shexc.C107_unambiguous`, `Shexc.C107_layout_partial`, `Shexc.C107_schema_partial`, `Shexc.C107_refuted`, `Shexc.C107_misread_refuted`, `Shexc.C107_accepted_refuted`, `Shexc.C108_round_trip_partial`, `Shexc.C108_written_partial`, `Shexc.C108_injective_partial`, `Shexc.C108_panics_iff`, `Shexc.C108_refuted`, `Shexc.C108_negation_refuted`, `Shexc.C109_read`, `Shexc.C109_unambiguous`, `Shexc.C109_ends`, `Shexc.C109_no_panic_partial`, `Shexc.C109_refuted`, `Shexc.C110_names_partial`, `Shexc.C110_absolute`, `Shexc.C110_refuted`, `Shexc.C111_roundtrip_partial`, `Shexc.C111_many_refused`, `Shexc.C111_panics`, `Shexc.C111_refuted`, `Shexc.C112_subjects_partial`, `Shexc.C112_objects_partial`, `Shexc.C112_pairs`, `Shexc.C112_read`, `Shexc.C112_refuted`, `Conv.C113_converts_iff`, `Conv.C113_panics`, `Conv.C113_errors`, `Conv.C113_meaning`, `Conv.C113_no_target`, `Conv.C113_preserved_partial`, `Conv.C113_refuted`, `Mat.C114_graph_iff`, `Mat.C114_one_graph`, `Mat.C114_recursive`, `Mat.C114_failures`, `Mat.C114_triples`, `Mat.C114_conforms_partial`, `Mat.C114_refuted`, `Cmp.C115_converts_iff`, `Cmp.C115_panics`, `Cmp.C115_group`, `Cmp.C115_single`, `Cmp.C115_tells_partial`, `Cmp.C115_refuted`, `Rd.C116_reads`, `Rd.C116_ends`, `Rd.C116_ways`, `Rd.C116_rejects_partial`, `Rd.C117_reads`, `Rd.C117_ends`, `Rd.C117_exact_partial`, `Rd.C117_refuted`, `Rd.C118_components_partial`, `Rd.C118_ignored`, `Rd.C119_schema`, `Rd.C119_reads`, `Rd.C119_rejects_partial`, `Rd.C120_round_trip_partial`, `Rd.C120_unreadable`, `Rd.C120_lost`, `Store.C121_reading`, `Store.C122_service`, `Store.C122_remembered`, `Store.C122_matching`, `Store.C122_outgoing_partial`, `Store.C122_engine_graph`, `Store.C122_closed_ignored`, `Act.C123_test`, `Act.C123_map`, `Act.C123_matched_refuted`, `Act.C123_start_fails`, `Act.C123_start_passes`, `Act.C123_start_once_refuted`, `Act.C124_spec`, `Shacl.C125_node_kinds`, `Shacl.C125_ranges_partial`, `Shacl.C125_strings_partial`, `Shacl.C125_class_partial`, `Shacl.C125_equals_partial`, `Shacl.C125_disjoint_partial`, `Shacl.C125_less_than_partial`, `Shacl.C125_closed`, `Shacl.C125_text_refuted`, `Shacl.C125_errors_refuted`, `Shacl.C125_class_refuted`, `Shacl.C125_class_blank`, `Shacl.C125_blank_refuted`, `Shacl.C125_less_refuted`, `Shacl.C126_targets`, `Shacl.C126_modes_partial`, `Shacl.C126_modes_refuted`, `Shacl.C126_targets_refuted`, `Shacl.C127_paths_partial`, `Shacl.C128_inject_partial`, `Shacl.C128_inject_refuted`, `Shacl.C128_path`, `Shacl.C128_results_partial`, `Shacl.C128_results_refuted`, `Shacl.C128_errors`, `Shacl.C128_deactivated`, `Gen.C129_order`, `Gen.C130_counts_partial`, `Gen.C130_counts_refuted`, `Gen.C130_shares`, `Gen.C130_relations`, `Gen.C131_data_partial`, `Gen.C131_extracted`, `Gen.C131_references_refuted`, `Gen.C131_kinds_refuted`, `Gen.C131_texts_refuted`, `Gen.C131_oneOf_refuted`, `Gen.C132_bounds_partial`, `Gen.C132_no_loss_partial`, `Gen.C132_shex`, `Gen.C132_constraint`, `Gen.C132_shacl_bounds`, `Gen.C132_shacl_represented`, `Gen.C132_shacl_values_partial`, `Gen.C132_hasValue_refuted`, `Gen.C133_valid_partial`, `Gen.C133_missing_refuted`, `Gen.C133_types_refuted`, `Gen.C133_generated_partial`, `Gen.C134_choice`, `Gen.C134_registered`, `Gen.C134_texts`, `Gen.C134_bounds_partial`, `Gen.C134_bounds_refuted`, `Gen.C134_wrap_refuted`, `Gen.C134_fraction_refuted`, `Gen.C134_ignored_refuted`, `Gen.C134_panic_refuted`, `Gen.C135_pattern_partial`, `Gen.C135_whole`, `Gen.C135_colour`, `Gen.C135_alternative_refuted`, `Gen.C135_group_refuted`, `Gen.C135_negated_refuted`, `Gen.C135_repeated_refuted`, `Gen.C135_zero_refuted`, `Gen.C135_empty_refuted`, `Gen.C135_inside_refuted`, `Gen.C135_at_refuted`, `Shexj.C136_read_back`, `Shexj.C136_final`, `Shexj.C136_references`, `Shexj.C136_blank_inside`, `Shexj.C136_objects`, `Shexj.C136_integers`, `Shexj.C136_ranges_refused`, `Shexj.C136_facets_refused`, `Shexj.C136_nesting_refused`, `Shexj.C136_unchanged_refuted`, `Select.C137_made`, `Select.C137_patterns`, `Select.C137_once`, `Select.C137_numbered`, `Select.C137_answers`, `Select.C137_answers_of_label`, `Select.C137_answers_have`, `Select.C137_optional_refuted`, `Select.C137_choice_refuted`, `Select.C137_shared_refuted`, `Select.C137_converse_refuted`, `Select.C137_circle`, `Select.C137_text`, `Select.C137_names`, `Select.C137_text_refuted`, `Select.C137_prefixed_refuted`, `Uml.C138_made`, `Uml.C138_drawn`, `Uml.C138_once`, `Uml.C138_closed`, `Uml.C138_closed_refuted`, `Uml.C138_cardinality`, `Uml.C138_cardinality_text`, `Uml.C138_neighbours`, `Uml.C138_not_refuted`, `Uml.C138_group_refuted`, `Uml.C138_lost_refuted`, `Uml.C138_redeclared_refuted`, `Uml.C138_alias_refuted`, `Uml.C138_again`, `Cache.C139_written`, `Cache.C139_read_iff`, `Cache.C139_again`, `Cache.C139_same_partial`, `Cache.C139_same_refuted`, `Cache.C139_zero_refuted`, `Cache.C139_bool_refuted`, `Cache.C139_labels`, `Cache.C139_strict`, `Cache.C139_cut`, `Cache.C139_trailing`, `Cache.C139_magic`, `Inspect.C140_outgoing`, `Inspect.C140_incoming`, `Inspect.C140_walks`, `Inspect.C140_zero`, `Inspect.C140_defaults`, `Inspect.C140_text`, `Inspect.C140_text_idem`, `Inspect.C140_text_refuted`, `Visual.C141_made`, `Visual.C141_nodes`, `Visual.C141_numbers`, `Visual.C141_edges`, `Visual.C141_counts`, `Visual.C141_text`, `Visual.C141_merged_refuted`, `Visual.C141_quotes_refuted`, `Sd.C142_reads`, `Sd.C142_succeeds`, `Sd.C142_errors`, `Sd.C142_no_panic_partial`, `Sd.C142_dataset_refuted`, `Answers.C143_find`, `Answers.C143_csv`, `Answers.C143_csv_iff`, `Answers.C143_table`, `Answers.C143_json`, `Answers.C143_formats`, `Answers.C143_markdown_refuted`, `Answers.C143_columns_refuted`, `Answers.C143_empty_refuted`, `Html.C144_made`, `Html.C144_pages`, `Html.C144_closed`, `Html.C144_complete`, `Html.C144_label_partial`, `Html.C144_label_refuted`, `Html.C144_landing`, `Html.C144_files`, `Html.C144_files_refuted`, `Html.C144_cardinality`, `Html.C144_cardinality_refuted`, `Html.C144_direction_refuted`, `Load.C145_merged`, `Load.C145_replaced`, `Load.C145_replaced_refuted`, `Load.C145_property_graphs`, `Load.C145_endpoint`, `Load.C145_address_refuted`, `Load.C145_unchanged`, `Load.C145_failed_partial`, `Load.C145_atomic_refuted`, `Load.C145_override_refuted`, `Load.C145_panic`, `Load.C146_source`, `Load.C146_source_refuted`, `Load.C146_declaration`, `Load.C146_keyword_refuted`, `Load.C146_header`, `Load.C146_held_back`, `Load.C146_header_refuted`, `Gen.C147_parts`, `Gen.C147_once`, `Gen.C147_single`, `Gen.C147_statistics`, `Gen.C147_failure`, `Gen.C147_list_partial`, `Gen.C147_list_refuted`, `Gen.C147_total_refuted`, `Gen.C147_empty_refuted`, `Regex.C148_flags`, `Regex.C148_set`, `Regex.C148_shacl_partial`, `Regex.C148_quoted`, `Regex.C148_shex`, `Regex.C148_quoted_refuted`, `Regex.C148_comment_refuted`, `Regex.C148_return_refuted`, `Regex.C148_end_refuted`, `Regex.C148_shex_quoted_refuted`, `Regex.C148_shex_repeated_refuted`, `Shexr.C149_read_partial`, `Shexr.C149_lost`, `Shexr.C149_values_lost`, `Shexr.C149_literals_lost`, `Shexr.C149_one`, `Shexr.C149_contents_lost`, `Shexr.C149_no_end`, `Shexr.C149_read_refuted`, `Qlever.C150_words_refuted`, `Qlever.C150_command_partial`, `Qlever.C150_colon_refuted`, `Qlever.C150_error`, `Qlever.C150_mounts`, `Qlever.C150_once`, `Qlever.C150_run`, `Qlever.C152_removed`, `Qlever.C152_files_partial`, `Qlever.C152_files_refuted`, `Qlever.C153_served_partial`, `Qlever.C153_files`, `Qlever.C153_stem_refuted`, `Qlever.C153_format_refuted`, `Qlever.C153_files_refuted`, `Qlever.C154_settings_partial`, `Qlever.C154_token_refuted`, `Qlever.C154_injective`, `Qlever.OneShot.C155_plain`, `Qlever.OneShot.C155_fed_partial`, `Qlever.OneShot.C155_fed_refuted`, `Qlever.OneShot.C155_success`, `Qlever.OneShot.C155_error`, `Qlever.OneShot.C155_stderr`, `Qlever.OneShot.C155_left_partial`, `Qlever.OneShot.C155_left_refuted`, `Qlever.OneShot.C156_whole_partial`, `Qlever.OneShot.C156_truncated_refuted`, `Qlever.Probe.C157_first`, `Qlever.Probe.C157_none`, `Qlever.Probe.C157_absolute_partial`, `Qlever.Probe.C157_absolute_refuted`, `Qlever.Size.C158_sizes`, `Qlever.Size.C158_errors`, `Qlever.Size.C158_limits`, `Qlever.Size.C158_docker_refuted`, `Qlever.Wait.C159_ends`, `Qlever.Wait.C159_ok`, `Qlever.Wait.C159_timeout`, `Qlever.C160_served_partial`, `Qlever.C160_files`, `Qlever.C160_directory_refuted`, `Qlever.C161_paths_partial`, `Qlever.C161_format_refuted`, `Qlever.C161_compressed_refuted`, `Qlever.C161_reader_lost`, `Mcp.C162_origin`, `Mcp.C162_guards`, `Mcp.C162_panics`, `Mcp.C162_panic_refuted`, `Mcp.C162_host_refuted`, `Mcp.Log.C163_text`, `Mcp.Log.C163_fields_refuted`, `Mcp.Log.C163_message_refuted`, `Mcp.State.C164_full_refuted`, `Mcp.State.C164_ok_refuted`, `Mcp.State.C164_tmp_refuted`, `Mcp.Pages.C165_follow`, `Mcp.Pages.C165_cursor`, `Mcp.Pages.C166_preview_partial`, `Mcp.Pages.C166_fence_refuted`, `Mcp.Loading.C167_loaded_partial`, `Mcp.Loading.C167_unread`, `Mcp.Loading.C167_nothing`, `Mcp.Loading.C167_endpoint`, `Mcp.Loading.C167_endpoint_refuted`, `Mcp.Loading.C168_kept_partial`, `Mcp.Loading.C168_restart`, `Mcp.Loading.C168_race_refuted`, `Mcp.Loading.C168_failed_refuted`, `Mcp.Asking.C169_kind`, `Mcp.Asking.C169_kind_partial`, `Mcp.Asking.C169_select_refuted`, `Mcp.Asking.C169_describe_refuted`, `Mcp.Asking.C169_format`, `Mcp.Asking.C169_answer`, `Mcp.Asking.C169_refused`, `Mcp.Asking.C170_fenced_partial`, `Mcp.Asking.C170_plain`, `Mcp.Asking.C170_refuted`, `Mcp.Mapping.C171_shape_partial`, `Mcp.Mapping.C171_start_partial`, `Mcp.Mapping.C171_given`, `Mcp.Mapping.C171_strict_refuted`, `Mcp.Mapping.C171_literal_refuted`, `Mcp.Mapping.C171_summary_partial`, `Mcp.Mapping.C171_summary_refuted`, `Mcp.Arcs.C172_arcs_partial`, `Mcp.Arcs.C172_depth_partial`, `Mcp.Arcs.C172_depth_refuted`, `Mcp.Arcs.C172_lines_refuted`.
<!-- axioms end -->

## Plan per property

| id | modelled | how proved |
|---|---|---|
| C01 | derivative, nullability, smart constructors | Lean denotation `L : Rbe → Multiset → Prop`; induction: derivative language = left quotient |
| C02 | same | refuted by witness (`{0,0}` group); C01 is the surviving part |
| C03 | `deriv_bag` over a list enumeration | the bags accepted for any expression, degenerate or not, are characterised (`Accepted`); the verdict depends on the multiset only |
| C04 | `interval` | induction: interval = set of k with bag in the k-fold sum of the language |
| C05 | `interval` with Repeat | one-sided induction |
| C06 | same | refuted by witness; partial for non-nested repeats |
| C07 | both algorithms | from C01, C05, C06 partial |
| C08 | constructors of the struct | induction over construction |
| C09 | `mandatory_values` | structural induction |
| C10 | `feasible` | structural induction with three mutually supporting invariants; refuted for shared symbols |
| C11 | `feasible_neighs` | from C10 with lo = 0 |
| C12 | `matches` and its iterator | cartesian product as list of choices |
| C13 | same | case analysis on number of components |
| C14 | open mode derivative | refuted for Repeat; partial for Repeat-free expressions |
| C15 | `diagnose_failure` | filter lemma |
| C16 | conditioned derivative | refuted by witness |
| C17 | odometer iterator | iterator unfolds to the list of all assignments |
| C18 | class enumerator | depth-first search refinement to a recursive enumeration |
| C19 | `next_permutation` | lexicographic successor |
| C20 | `prove` | parameterised greatest fixed point |
| C21 | `prove` with cache | invariant: each cached value is exact |
| C22 | `prove` | measure: pairs not yet assumed |
| C23 | `check_node_shape_expr` | structural induction |
| C24 | dependency graph | SCC criterion equals cycle through negative edge; refuted for overwritten edges |
| C25 | `check_node_shape` | refinement to the ShEx satisfaction condition |
| C26 | selection odometer | enumeration lemma |
| C27 | `qualify`/`resolve` | refuted in general; partial under stated condition |
| C28 | `longest_prefix_match` | fold invariant |
| C29 | `PrefixMap` ops | induction over histories |
| C30 | registry | induction over histories |
| C31 | value sets | case analysis; wildcard deviation refuted |
| C32 | `lang_stem_matches` | list prefix |
| C33 | path evaluation | refuted when literals are reached; partial otherwise |
| C34 | path evaluation | measure on unvisited nodes |
| C35 | Kahn levels | loop invariant |
| C36 | SHACL cache | invariant; refuted for nested property shapes |
| C37 | interleaved workers | rely/guarantee on the shared cache |
| C38 | logical constraints | list counting |
| C39 | report equality | refuted (not symmetric); partial |
| C40 | class targets | refuted natively; partial |
| C41 | closed and pair constraints | filter lemmas |
| C42 | record types | map lemmas |
| C43 | OPEN | refuted by witness |
| C44 | union | refuted by witness; one direction partial |
| C45 | type map validation | list lemmas |
| C46 | `Card::intersection` | refuted by witness; partial |
| C47 | numeric equality | case analysis over abstract decimal |
| C48 | numeric comparison | refuted for unrepresentable values; partial |
| C49 | serde of bounds | refuted for 0 in signed formats; partial |
| C50 | result map | induction over histories |
| C51 | inheritance graph, `descendants`, `parents` | closure equals the reflexive transitive closure of EXTENDS |
| C52 | partition search of `check_node_extends` | search equals existence of a partition; pre-check refuted for overlapping parents |
| C53 | `ExtendAlternative` | alternatives of a hierarchy equal the choices of one disjunct at every parent |
| C54 | engine with EXTENDS | greatest fixed point with descendants; stratified for negation |
| C55 | serialisation of a prefix map | same declarations in the same order |
| C56 | relative IRIs | prefix/suffix lemmas |
| C57 | digits of numbers | value of the decimal expansion; refuted below one |
| C58 | `match_literal` | case analysis |
| C59 | texts of integer types | reader equals the lexical grammar; refuted for repeated signs and range |
| C60 | conversion of literals | case analysis over the datatype |
| C61 | equality of terms | refuted for derived integer types |
| C62 | comparison of literals | refuted for ill-formed numbers |
| C63 | node constraints | conjunction over the list of parts |
| C64, C65 | facets | by value and by length; refuted for bytes |
| C66 | SHACL engine | invariant: each result set is the meaning of the shape |
| C67 | SHACL engine | rank on shapes; refuted for siblings |
| C68, C69 | SHACL dependency graph | reachability; polarity refuted |
| C70 | targets | exactly the focus nodes by membership |
| C71 to C76 | primitive constraints | each evaluator equals a filter of the value nodes by the specification |
| C77 | reports | counting; refuted for repeated results |
| C78 to C83 | PGSchema values, conditions, property lists, node types, edges, verdicts | structural induction; refuted by witness where stated in `MANIFEST.json` |
| C84 | merge of property graphs | loop invariants over names and edges |
| C85 | schemas built step by step | map lemmas under the invariant of the counters |
| C86 | schema texts | induction over declarations from the end; the reading of a text is a separate inductive specification |
| C87 | graph and type map texts | induction over declarations from the end |
| C88 | pending maps | refinement to two finite sets, induction over operations |
| C89 | reading DCTAP tables | refinement of the reader with its state to a table read row by row |
| C90 | columns | tables which agree cell by cell are read alike |
| C91 | placeholders | counters equal the number of rows above; digits are injective |
| C92 | sheets | loop invariant; refuted for sheets not in use from the first cell |
| C93 | names in DCTAP | last colon, by induction on the text |
| C94, C95 | DCTAP to ShEx | each function succeeds exactly when its names resolve, and its result is read on nodes |
| C96 | pattern facets | case analysis of the node and the flags |
| C97, C98, C99 | `ast2ir.rs` with the engine | invariant of the schema under construction by induction on the depth; every stored expression represents a core expression; typings are carried between labels and indices both ways, then C20 |
| C100, C103 | `ast2ir.rs` | each step succeeds exactly when its part of the specification holds; imports by a measure on what is not yet visited |
| C101 | `ast2ir.rs` | well-founded induction on inclusions; the counterexample by induction on the depth |
| C102 | `ast2ir.rs`, `schema_ir.rs` | invariant of the loop over imports |
| C104 | `shex_grammar.rs`, `shex_parser.rs` | every parser leaves a suffix, shorter when it consumed; compositional rules for each combinator, parameterised by the inputs allowed; induction on the depth of brackets |
| C105 | `shex_parser.rs`, `deref` | `deref` of an expression is renaming when every name resolves, by induction on expressions; invariant of the statements read so far |
| C106 | `shex_grammar.rs`, `grammar.rs` | texts of words as relations; for each parser, by induction on the text, that it gives back the word and stops at its end |
| C107 | `shex_grammar.rs`, `shex_parser.rs` | grammar as relations between words and trees; for each parser, that it reads the words of its rule and fails on the first word of every other rule, by induction on the depth of brackets |
| C108 | `shex_compact_printer.rs`, `compact_printer.rs` | each document is written as words of the grammar, whatever the layout, by induction on the depth of brackets; then C107; names return through the longest namespace (C28); panics by induction on the expressions |
| C109 | `shapemap_grammar.rs`, `shapemap_parser.rs` | as C104 and C107, with words of its own |
| C110 | `shapemap_parser.rs`, `deref` | `deref` of a selector is renaming when every name resolves; invariant of the associations read so far |
| C111 | `shapemap_compact_printer.rs` | each association is written as words; then C109; names return through the longest namespace (C28); without a comma the reader stops early |
| C112 | `node_selector.rs`, `query_shape_map.rs` | texts of queries as a relation; the assumption on the query engine for the text of the pattern; induction on the associations |
| C113 | `shacl2shex.rs` | ShEx and SHACL as relations on data; the converted shapes characterised through both; induction on the property shapes |
| C114 | `materializer.rs` | recursion with steps, monotone; it ends exactly if the references are well founded; conformance with an invariant on the blank nodes that are new |
| C115 | `coshamo.rs`, `coshamo_converter.rs` | maps by their entries; both loops of the comparison and the loop over a group by induction |
| C116, C117 | `rdf_node_parser` | parsers as functions of the focus; lists and paths as relations on graphs; when reading ends by fuel, monotone |
| C118, C119 | `shacl/src/rdf` | what a node declares as a relation on triples; each parser for its own property, then the sequence with its effect on the focus; invariant of the schema read so far |
| C120 | `writer.rs`, `register` | the triples written, then C119 for each shape; panics by induction on the schema |
| C121 | `in_memory.rs` | what the history says as a relation; invariant of the state by induction on the operations, from the last one |
| C122 | `endpoint.rs`, `backend.rs`, `rdf_data.rs`, `neighs_rdf.rs` | a cache is coherent when it has all that the service tells of a node and predicate; invariant of the calls; arcs compared with those of the model of the engine |
| C123 | `ir/actions`, `cond_kind.rs`, `check_start_acts` | codes of actions as written texts; the reader is shown to accept these and no others, by induction on the text; actions as a relation on worlds |
| C124 | `external_resolver.rs` | induction on the chain of resolvers |
| C125 | `validate_sparql` of the constraints, `validate_ask_with` | queries as trees with the meaning of SPARQL; each constraint from the solutions of its query |
| C126 | `engine/sparql.rs` | targets from the solutions; the modes compared by C125 and the theorems on the native mode |
| C127 | `object_as_sparql`, `path_to_sparql` | the grammar of SPARQL for terms as a relation and for paths as a recursive descent with fuel; induction on paths |
| C128 | `inject_values_into_where`, `basic_validator.rs` | positions in bytes of ASCII texts; induction on focus nodes and solutions |
| C129 | `topological_sort` | reachability in the graph as a relation; invariant of the depth-first search with fuel and its adequacy |
| C130 | numbers of values, links and entities in `parallel_generation.rs` | bounds as integers; random numbers as functions of the place where they are drawn |
| C131 | `generate_data` as a whole | the triples as a list, counted as a set; membership lemmas for each loop |
| C132 | unified constraints from ShEx and SHACL | meaning of facets and components as a separate specification over literals; numbers of constraints as a tally |
| C133 | the conformance metrics | the graph as a list of triples; conformance to closed shapes as the specification; data from C131's model |
| C134 | generators of texts for integers, booleans, dates and times, and which one is taken | lexical spaces as predicates on texts; random numbers as a parameter that is within the ranges asked for |
| C135 | texts for patterns | regular expressions as sequences of atoms with quantifiers, with their text and their language; the generator works on the text |
| C136 | ShExJ | JSON values as trees (text of JSON is outside); conditions on schemas by recursion over the syntax; the form that comes back; induction on the nesting |
| C137 | ShEx to SPARQL | where the query comes from as a relation; answers as assignments to the variables; conformance as in the specification of C99; induction on the triple expression |
| C138 | ShEx to UML | what a declaration shows as relations on the syntax; a diagram draws a list of declarations if its parts are those of the list; invariant of the state, steps that only add; the conversion succeeds exactly if all relations hold |
| C139 | saved compiled schemas | a law for a reader and a writer that composes (what is read back, whatever follows), one for readers that do not look at what follows, and fuel that is never short; leaves of a schema that are readable or kept |
| C140 | node information | a relation between trees and nodes by recursion on the depth, invariants of the map of arcs, sorting; branches of trees against walks of the graph |
| C141 | drawings of graphs | an invariant of the state after each triple (numbers, nodes, edges, counts), with the effect of drawing a term by induction on its nesting |
| C142 | service descriptions | each reader is shown to give what a relation of the specification says, by composition of the combinators; a counterexample for each claim that fails |
| C143 | answers to queries | a reader of comma-separated values as specification, and induction on characters, fields and rows; invariants of the loops over sources |
| C144 | HTML pages | a reading of each declaration by itself; an invariant that gives the page of each name from the declarations read so far |
| C145 | loading of data | a relation of inputs read one after another; the outcome of each loop by induction over the inputs; one case for each way a call ends |
| C146 | texts of inputs and prefixes | longest readings of declarations by induction; a declaration that starts inside a match of another has its name, or that name is the keyword |
| C147 | files of generated data | induction over parts and their numbers; names of parts are different as numbers can be read back |
| C148 | patterns with flags | induction over the pattern and the places of the text; skipping of white space against its removal |
| C149 | schemas as graphs (ShExR) | relation between nodes and expressions, induction over it; induction over nested calls for what does not end |
| C150 | container of the index builder | words: induction over texts; mounts: invariant of the map of directories |
| C151 | kept indexes | hash: injective steps; bytes hashed: unique decoding; histories: invariant of what is kept |
| C152 | dropped servers | case analysis; what is removed as an equation |
| C153 | inputs from paths | induction over paths, with what each leaves unchanged |
| C154 | command of the server | words of the shell (C150), then flags one by one |
| C155 | runs of the builder | case analysis over answers of Docker; induction over pieces of messages |
| C156 | loads of compressed files | invariant over histories of loads |
| C157 | decompressors | induction over candidates and directories; unique splitting of PATH |
| C158 | limits of memory | suffixes of texts, stripped apart from what stands before them |
| C159 | waiting for a server | invariant of the loop: time of each request; bound by the pauses |
| C160 | streams | induction over streams; directories differ when hashes do |
| C161 | prefixes | fold over files against the last declaration |
| C162 | guards of the MCP server | shape of origins against `split`; exact set of headers that panic |
| C163 | log of the MCP server | invariant of the window; what is counted was sent since its start |
| C164 | state of the MCP server | induction over the pieces that a buffered writer is given; files at each moment |
| C165 | listings of the MCP server | induction over what is left; numerals read back |
| C166 | previews | lines of the block against the lines of the text |
| C167 | loading through the MCP server | from C145, for the arguments that the tool passes on |
| C168 | what is kept of it | invariant of calls; steps of clients in any order |
| C169 | queries through the MCP server | first keyword among the words of a text; cases of requests |
| C170 | queries of a language model | lines of a text with fences |
| C171 | shape maps through the MCP server | terms with white space around; texts with `@` |
| C172 | arcs of a node through the MCP server | first delimiter of a line; fold over the lines |

## Where the code and the properties disagree

Each item has a witness in a theorem whose name ends in `_refuted` (or contains
`refuted`), or is recorded in the comment of the model definition.

### Regular bag expressions

* `Pending::pop` panics on a pair without keys, such as `from_pair` makes (C88).
* Groups `{0,0}`, groups with min > max and empty choices are mishandled by the derivative (C02, C09).
* The interval algorithm accepts too little under nested bounded repetition, and a choice with a failing branch rejects everything (C06).
* `From<Rbe> for RbeStruct` turns `Fail` into `Empty`.
* In open mode the verdict on a `{0,0}` group depends on the order in which the hash table enumerates the bag (C14).
* In open mode a foreign symbol makes an empty sequence fail, and a repetition with min 0 is forced to iterate (C14). `open` of a table is never set through the public interface.
* If no triple can be placed and the expression is nullable, the table answers an empty success (C12).
* The conditioned derivative of a star is followed by one mandatory copy of the body (C16). `Pending` accumulates from branches that later fail; `pop` panics when empty.
* Diagnoses may name symbols of branches of a choice that were not taken (C15 speaks only of what is reported as a violation).

### ShEx

* A reference with a semantic action (an `And` of conditions) is ignored by the collection of references, by dependency edges and by assumptions (C20, C21, C24).
* Cyclic EXTENDS recurses for ever (C22). EXTENDS and descendants are not in the dependency graph, so negated ancestors go undetected (C24).
* A second edge between two shapes overwrites the polarity of the first; the visited set compares shapes by value without polarity (C24).
* `dep` over-approximates and a reference adds the default predicate.
* `check_node_selection`, `try_split_constraint` and `collect_constraint_exprs` build a semantic action context without the registry.
* EXTRA on a predicate whose constraint is a shape reference tolerates every value (C25).
* The visited set is new in each reference when predicates are collected, so cycles recurse for ever; ancestors behind a conjunction are missed (C52).
* With one alternative per parent, conjuncts of a parent that are negations, disjunctions, nested conjunctions or external shapes are not looked at, so nodes that fail them are accepted; with several alternatives they are checked (C52).
* The pre-check for a single alternative rejects sibling parents that overlap (C52); two aliases of one parent count as two buckets; an empty disjunction beside a parent with several alternatives panics (C26).

### ShEx compiler

* A triple expression which includes itself inside its value, `<S> { $<e> :p { &<e> } }`, is compiled without end: the visited labels are forgotten at each shape (C101).
* The start expression is compiled before the labels of triple expressions are collected, so an inclusion in it is refused (C103). Labels of triple expressions inside values are never collected, so including them is refused (C103).
* The source of the root is not among the visited sources: a schema imported back is compiled twice, and refused when it labels a triple expression (C103).
* Two declarations of a label are accepted and the last one stands, without a message (C97, C102).
* Prefixed names of an imported schema are resolved with the prefixes of the root.
* `negated` on a triple constraint is not read. Semantic actions of `EachOf` are looked up and dropped, those of `OneOf` and of shapes are dropped.
* The base is kept in pattern facets and only printed.

### ShEx compact syntax

* The reader panics on local names and blank node labels that begin with a letter of several bytes, on `\uD800`, on `\u005C` in a pattern, on an inner shape with `EXTENDS`, and on a bracket around an inclusion (C104).
* Prefixed names in stems, exclusions, imports and start actions are not resolved; a namespace without `/` or `#` at its end gets a `/` (C105).
* Keywords are read without looking at the character after them, so `start:`, `base:`, `prefix1:`, `import:`, `iri:`, `literal:`, `not:` and the like cannot be used as prefixes where a keyword may stand.
* Escapes in local names keep their backslash, and a dot at the end of a local name belongs to it (C106).
* A long string with a quote inside is read as an empty string (C106).
* In facets `1.05` is read as 1.5 and `-0.5` as 0.5, and `.5` is refused; `TOTALDIGITS -1` wraps (C106, C107).
* `{4294967297}` is read as `{1}`; `{ 2}` and `{2 }` are refused (C106). Prefixes with two dots in a row are refused.
* Several string facets need to be written without space between them, and none may follow a reference (C107).
* After a stem of literals a negative number is read as an exclusion; after the exclusion of a literal no other value can be read (C107).
* `abstracts:x {}` is read as an abstract shape `s:x`, and `[. - true:x]` as the exclusion of `true` followed by `:x` (C107).
* A bracket around one triple constraint replaces its label, cardinality, actions and annotations by those after the bracket, also when there are none (C107).
* `CLOSED`, `EXTRA` and the facets of numbers are read in capitals only; annotations after the start expression are refused (C107).
* `IRI OR` and `IRI AND` are accepted (C107). Brackets are tried several times at each level, so the time is exponential in their depth.
* A comment `/* ... */` directly after a reference or a facet is taken for a pattern.
* The printer writes no brackets: `NOT (A AND B)` is written `NOT A AND B` and `(A OR B) AND C` is written `A OR B AND C` (C108).
* The printer drops `ABSTRACT`, labels of triple expressions, actions of shapes, and cardinalities, annotations and actions of groups (C108).
* The printer writes `{ 2,3 }`, `{,2}`, `MinInclusive`, one `EXTENDS` for several parents, unescaped strings and patterns, and actions before annotations, which are refused by the reader (C108).
* The printer panics on alternatives and inclusions of triple expressions, on stems, and on values other than IRIs and numbers (C108).

### Shape maps

* `"x"@START` is refused, as `@START` is read as a language tag; a space helps (C109).
* `{ focus:x <p> FOCUS }` is refused and `{ focus:x <p> }` is read as a pattern on the focus node, as keywords are read without looking at the character after them (C109).
* A namespace without `/` or `#` at its end gets a `/` (C110).
* A printed shape map with two associations or more is refused: there are line breaks where commas should be (C111).
* `without_colors` keeps the colour of strings; strings and queries are printed without escapes; the printer panics on literals other than plain strings in patterns (C111).
* Strings are written into the query of a triple pattern as they are, so that a string with a quote changes the query; datatypes are written with prefixes that the query does not declare (C112).
* `{ FOCUS p _ }` selects a node once for each triple (C112).

### Literals and value sets

* Integers from 2^96 on do not convert to a decimal, so comparison loses transitivity (C48, C62).
* The total digits of a number below one count the zero before the point (C57, C64).
* Zero panics in binary formats as a maximum, 2^64-1 comes back as unbounded, and 2^63 and more are errors; a minimum of -1 reads as the largest number (C49).
* `++5` and `+-+0` are read as numbers; unsigned types reject `-0` (C59, C73).
* Wildcard stem ranges match terms of every kind (C31). Length facets count bytes (C65, C74).
* Prefixed IRIs among exclusions panic in the conversion to the intermediate representation.
* Recording a conforming and a non-conforming verdict for a pair, or anything beside an inconsistent one, panics (C50).
* Derived integer types are compared by value as terms (C61).

### SHACL

* Results of nested property shapes are cached under the value node, not under the outer focus node (C36, C37, C66). The cache is keyed by objects, which are equal by value, while constraints look at lexical forms.
* Sibling shapes and reifiers are not in the dependency graph (C67); polarity is overwritten (C69).
* Errors of operands count as non-conforming in `sh:and`, `sh:not`, `sh:xone` and qualified shapes, and are propagated in `sh:or` and `sh:node` (C38); an error of an evaluator counts as conforming at the top.
* A path error drops the focus node without a word, so literals pass property shapes (C66); a blank target node is dropped; malformed targets panic.
* Class targets consider direct instances only, `sh:class` and implicit class targets one level of subclasses (C40, C76).
* Derived integers are not comparable with `xsd:integer`, decimals and floats (C71); constants are canonicalised and negative counts wrap (C72); `sh:closed` checks focus nodes, literals as focus nodes panic, `sh:disjoint` compares by value, `sh:lessThan` compares IRIs (C41); report equality is not symmetric (C39).
* The inverse of a path that is not a predicate panics and a closure that reaches a literal is an error (C33).

### PGSchema

* Combining record types drops the open flag, so no node type is ever open (C43).
* A union mixes labels of one side with contents of the other (C44, C81).
* A type without a label (also an optional alternative, also an unlabelled end of an edge type) accepts nothing (C81).
* Intersections of cardinalities are too large (C46). An empty part annihilates a conjunction of properties (C80).
* A condition fails if any part does not apply to the value, even in a disjunction (C79).
* `compare_with_result` looks at the first association only (C83); the expectation is ignored by `validate`.
* Cyclic references recurse for ever (C81). Merging panics for shadowed nodes and loses keys without values (C84).
* Unnamed edges share the empty name; a failed `add_edge` leaves the name registered.
* `Value::cmp` makes values of different kinds and different booleans equal.
* Of a type `A & B & C` (or with `|`) only the first two parts are kept (C86).
* Properties of a specification without labels are dropped, and the type then accepts no node with labels or properties (C86).
* An escaped quote in a string keeps its backslash (C86).
* `CREATE GRAPH TYPE` reaches a `todo!` and panics (C86).
* In a graph text an edge keeps the node first declared under a name when the name is declared again after it (C87).
* Types without a name are stored under "0", "1", ...; a type map may name a type by digits and so reach them.

### Prefixes

* `resolve` splits at the last colon and `extend` may insert a slash, so names produced by `qualify` do not always come back (C27).

### DCTAP

* With rows shorter than the headers (allowed by default) the label of one shape is carried over to the next (C89).
* The placeholder of a property is looked up by the cell with its whitespace and counted without it; a property of
  whitespace only makes a statement with an empty property (model comment in `Verif/Tap/Model.lean`).
* A generated property may have the name of one in the table or of another placeholder (C91).
* A sheet whose first row or column is not in use is read shifted, and its last rows are lost; every row of a sheet
  shows line 1 (C92).
* Absolute IRIs in a table are split at their last colon and refused (C93). The base IRI for datatypes is never used.
* A missing column `mandatory` means mandatory, an empty cell means optional (C94).
* With exactly one datatype the datatype and the pick list are dropped; node kinds are never converted; the delimiter
  of shapes does not separate names (C95). Patterns are refused.

### Conversion of SHACL to ShEx

* Each property shape becomes a triple constraint without cardinality, which asks for exactly one value, where SHACL asks for any number; so nodes without the property, or with two values, are no longer accepted (C113).
* Of several components only the first is kept; a disjunction is converted to a shape that accepts everything; `sh:minCount`, `sh:maxCount` and all components but class, datatype and disjunction are a panic (C113).
* A class becomes a shape with exactly one `rdf:type`; subclasses and a second type are not accepted (C113).
* Two property shapes for one path ask for two values (C113).
* With target classes added, a node shape without target class becomes a shape that no node satisfies (C113).

### Graphs made from a schema and a map

* "The resulting graph validates against the target schema" (materializer.rs:42) is false: values that the map does not have are left out, all alternatives of a choice are made, a shape is made once whatever its cardinality, and inverse and negated constraints are made as any other (C114).
* Schemas whose shapes refer to each other in a circle overflow the stack, even if the reference is optional (C114).
* New blank nodes are numbered from one, without a look at the blank node that was given as the subject; if they have the same name, they are one node (C114).
* Prefixes that are not declared are a panic, not an error (C114).
* The key of an action may be a prefixed name when a graph is made, but only `<IRI>` when the map is filled by validation (map_action_extension.rs:44-46), where a prefixed name is an error. The model has the first only.

### Comparison of shapes

* A shape with a single triple constraint, not in a group, has an empty model: the constraint is added to `self.current_coshamo`, and the model that is returned is another one (coshamo_converter.rs:116-130). Two such shapes never differ (C115).
* Properties are called equal whatever their values are, and the equivalences of prefixes of the configuration are not used (C115).
* Of several constraints for a property only the last is kept (C115).
* The labels `START` and `_:x` are a panic, and so are shapes whose triple expression is a reference (C115).
* Without a prefix map there is an error even if all names are in full (C115).

### Parsers of RDF nodes

* Of several values of a property that should have one, any one is taken, whichever the hash set gives first; so a list cell with two members is accepted and read differently from run to run (C116).
* Only two of the combinators put the focus back. `Or` tries its second parser at the focus where the first has failed, so a node whose list breaks off is read as the path of the node where it breaks off (C117).
* A path that contains itself, such as a node that is its own `sh:inversePath`, overflows the stack (C117).
* After `sh:ignoredProperties` the focus stays at the end of the list, so `sh:hasValue`, `sh:in`, `sh:sparql` and `sh:deactivated` of the same shape are read at `rdf:nil` and lost (C118).
* A member of `sh:languageIn` that is an IRI or not a language tag is a panic; blank nodes there are passed over (C118).
* Passed over without an error: node kinds that are not known, values of `sh:uniqueLang`, `sh:deactivated` and `sh:closed` that are not Boolean, blank nodes in `sh:in`, qualified counts that are not integers, severities that are not IRIs. In `C118` and `C119` they are neither declared nor malformed.
* A blank node as `sh:hasValue` is an error of the node shape; the property shape is then tried at that blank node, so if it has a path the entry of the node is the shape of another node (C119).
* Nodes that only have constraints, with no type, target or use as a shape, are shapes for SHACL but are not read (C119).
* The writer of SHACL writes `sh:nodeKind sh:IRI` as `sh:datatype sh:IRI` and panics for all other node kinds; it panics for paths that are not predicates and for blank nodes as values (C120).
* It writes the members of `sh:and`, `sh:or`, `sh:xone`, `sh:in`, `sh:languageIn` and `sh:ignoredProperties` as values of the property rather than as a list; schemas with one of the first three cannot be read back at all (C120).
* It writes the values of `sh:minInclusive` and the like, `sh:hasValue` and `sh:in` as plain texts without their datatype, and loses the property shapes and reifier shapes of property shapes (C120).

### Graphs and services

* Queries see the triples that the graph had when the SPARQL store was made, which happens once (in_memory.rs:591-601). `rudof_lib` makes it with the first query or validation, so data that is merged later is not seen by queries (C121).
* Without a store a query answers no, or has no answers, even if it is not a query at all (C121).
* A document that is rejected leaves the triples before the mistake in the graph (C121).
* Blank nodes made by `add_bnode` are numbered from one without a look at the graph; a document with `_:1` has the same node (C121).
* The formats TriG and N3 are a panic; the base that is given is only used to read Turtle, although it is set as the base of the data in all formats (C121).
* `CLOSED {}` and closed shapes with only inverse predicates accept nodes with any arcs when the data is an `RdfData` (or `RdfBackend`), because `outgoing_arcs_from_list` gives no remainder for an empty list (backend.rs:203-205, rdf_data.rs:479-481); the method of the trait that `OxigraphInMemory` uses does (C122).
* The arcs of services are never in the remainder, so CLOSED is not checked for them (C122).
* A blank node as the subject of a query to a service is a variable: the arcs of all nodes are given (C122).
* What a service has said is remembered for ever (C122).
* `triples` leaves out services that fail, while `triples_matching` fails (C122).

### Semantic actions and EXTERNAL shapes

* The actions of a triple constraint are run before the value expression is looked at (ast2ir.rs:747-749), so they print and fill the map for values that the constraint then rejects; `fail` makes the triple not match rather than the node not conform, so for a predicate with EXTRA it is passed over (C123).
* The actions at the start are run again for each pair of a node and a shape; there is no triple there, so an action of Map always fails and then no node conforms (C123).
* Actions of shapes, groups and choices are never run (ast2ir.rs:383-389, 513-516, 543-545).
* The contexts made for shapes that extend others have no registry (engine.rs:770, 1156, 1343, 1749, 1782, 1788), so no value meets a constraint with actions there (C123).
* Variables without a value are printed as nothing, although the comment in the code says that this should be an error (C123).
* Only declarations whose whole expression is EXTERNAL are replaced; EXTERNAL inside a conjunction, disjunction or negation is left, and then no node conforms with the resolvers that can be asked for by name (C124).
* The resolver that was added last is asked first; after `reject-all` was added no resolver from before is asked at validation (C124).

### SPARQL mode of SHACL

* Classes are searched with subclasses of any depth for IRIs, but one level deep for blank nodes; in the native mode it is one level for all, and targets have no subclasses. With a class that is a blank node nothing is checked or selected (C125, C126).
* Blank nodes are written into patterns, where they are variables: `sh:equals`, `sh:disjoint` and `sh:lessThan` of a blank focus node take the values of all nodes, and a blank value node is always found by `sh:disjoint` (C125).
* A blank node as value node makes `sh:lessThan` a query that cannot be parsed, and the whole validation ends with an error (C125).
* Errors of queries that are made for each value node are taken as conforming (mod.rs, `validate_ask_with_opt`) (C125).
* Literals are written after the conversion, so the text of `"05"^^xsd:byte` is `5` (C125).
* Lengths are in characters in this mode and in bytes in the native mode; IRIs are never less than IRIs in this mode and ordered by their texts in the native mode; literals as focus nodes are looked at in this mode, and ignored or a panic in the native mode (C126).
* Empty alternatives and sequences of paths are written as `()`, which is not a path of SPARQL (C127).
* The focus node is put after the first brace behind the first `WHERE` of the text in upper case. Without the keyword, which SPARQL does not ask for, it comes before the query; with the keyword in a comment or a name it may come elsewhere; the position is that in the text in upper case, so letters that become longer shift it, or give a panic (C128).
* `$PATH` is replaced also where it begins a longer name (C128).
* A blank node as focus node is written into `VALUES`, where SPARQL has no blank nodes: the query fails, and with it the whole validation (C128).
* The message of a solution is reported with its quotes and annotations; a solution without `?value` gets the focus node as value in property shapes too (C128).
* In the native mode SPARQL-based constraints report nothing (C128).

### Generation of data

* The order of shapes has dependents before what they depend on; a shape that refers to itself, as is common in ShEx, is an error (C129). Neither is used by `generate_data`, which goes over the map in hash order.
* A minimum above five without an upper bound gives five values with the strategy for maxima and a panic with others; without any maximum (as SHACL shapes have it) the limit is one (C130).
* References are generated twice: as nested entities and as links to entities of the shape, so a property with exactly one value gets two (C131).
* All alternatives of a `OneOf` are generated; literals of datatypes other than seven are written as `xsd:string`; constraints on node kinds get strings (C131).
* Values are put into a set: equal texts are one value, so the numbers may be less than asked for (C131).
* An absent maximum of a triple constraint is 1 in ShEx, 1 for the generator that reads ShEx, and no limit in the unified form (C132).
* Value sets and facets for lengths and digits are dropped from ShEx, and the loss is told; empty value sets, flags of regular expressions, alternatives and references to triple expressions are dropped and it is not told (C132).
* From SHACL, `sh:hasValue` becomes a constraint on all values, a property shape without constraints on values gets `xsd:string`, and paths that are not predicates are used as an IRI by their text (C132).
* The conformance metrics do not look at minimal numbers of values, so a node without its mandatory properties is fully valid; of several types of a node only one is looked at, which depends on the order of the graph (C133).
* Of several bounds on one side the last counts; bounds of integers are cut to 32 bits, those with a fraction are ignored, and a bound beyond the default of the other side is a panic; lengths, lists of values and fixed values are put into the parameters and no generator reads them (C134).
* Texts for patterns ignore alternatives, groups and negation; letters that are repeated become other letters; `{0}` is once; an optional part may leave nothing, which gives `PATTERN_MATCH_n`; a known pattern inside another one replaces the whole, and any `@` makes an address of mail (C135).
* ShExJ (C136): the label of a reference is matched against `<(.*)>` and `_:(.*)` anywhere in the text, so an IRI with `_:` in it
  comes back as a blank node; `START` is read as an IRI and refused; labels of triple expressions that are blank nodes are refused;
  ranges without exclusions are written with `null`, which is refused (and where the field is missing, a literal range panics with
  `todo!()`); the stem of an excluded literal or language is refused if it has a colon; two facets of a kind are written as a
  repeated field, which is refused; a language stem that is a wildcard is written as an empty text; `DATETIME_STR` is
  `xsd:datetime`, which is not the name of the datatype; a literal found to be wrong is written with a field `error` that is unknown to the
  reader.
* C137 (`shex2sparql.rs:109-161`, `select_query.rs:43-71`, `triple_pattern.rs:21-35`): cardinalities and alternatives are
  not looked at, so nodes that conform without a value for an optional or unchosen constraint are no answers; variables are
  the local names, so predicates of two namespaces with one local name must have a common value, and a predicate with the
  local name `this` must be a loop; inverse constraints, inclusions, and IRIs of no declared namespace panic (`todo!()`);
  references in a circle are followed without end. In the text the base is a bare IRI, predicates that are prefixed names
  are written as bare IRIs, and without a prefix map the words `SELECT * WHERE {` are missing.
* C138 (`shex2uml.rs`, `uml.rs`): cardinalities other than the four usual ones are refused or, if they are intervals, shown
  as their lower bound alone (the case for ranges comes after an equal test); a negated datatype is refused; `OneOf`,
  nested groups, inclusions and labels that are IRIs panic (`todo!()`); inverse and negated constraints, bounds of groups,
  `CLOSED`, `EXTRA` and facets of datatypes in `OR` and `AND` leave no trace; links to shapes that are not declared end
  where nothing is drawn; a shape declared twice keeps its links; names of two aliases of one namespace are two nodes;
  the diagram is not emptied when the converter is used again.
* C139 (`rbe/src/max.rs:113-121,165-177`, `literal.rs:176-178,1147-1152`, `shape_label.rs:66-122`): a saved schema with a
  triple constraint that may not occur (`{0}`) makes the reader panic, since an upper bound of zero is a `panic!`;
  a boolean in a value set is written as a text and read as a byte, so that the file is refused; the label of a blank node
  is written with `_:` and read with it, so that the shape is not found under its label; prefixed datatypes whose text is
  an IRI come back as this IRI; bytes after the end are not noticed; the node constraints of the source are dropped.
* C140 (`show_node_info.rs:102,138,195,226,243-247`, `utils.rs:18-34`): with depth 0 the recursion is not stopped: `depth - 1`
  overflows (a panic in debug builds, an endless recursion on cycles otherwise) when there is an arc to go on from. The predicates
  asked for restrict outgoing arcs only. A literal or a SPARQL selector with `://` in it is put between angle brackets in lax mode
  and is not read afterwards.
* C141 (`visual_rdf_node.rs:41-52,130-135,219-223`): `"1"^^xsd:boolean` and `"true"^^xsd:boolean` are one node, and a triple term with
  the former is looked up in the graph with the latter, so that it is drawn as not asserted although the triple is there; the address of
  a predicate of a triple term has angle brackets in its link (`to_string` where other nodes use `as_str`); the quotation marks
  of literals are not escaped in the text of the diagram.
* C142 (`service_description_parser.rs`): a literal given for the available graphs or for a graph makes the reader panic (`expect`);
  errors in the default dataset are swallowed by `optional`, so that it is lost without a message; the property partitions of a class
  partition are sought with `void:property` where those of a graph are sought with `void:propertyPartition`.
* C143 (`query_solutions.rs:111,155-262`, `run_query.rs:60`, `rdf_data.rs:385-408`): Markdown is written as the default drawing;
  the numbers of rows are always shown although the option is off by default; the header is that of the first answer and values
  are shown by place, so that answers of a source with another order of variables are in wrong columns; without answers, CSV is the text
  `No results` without a header; triple terms are written `<<s p o>>` outside and `<< s p o >>` inside; queries that describe panic.
* C144 (`html_shape.rs:58-71`, `shex2html.rs:156-266,359-371`, `name.rs:15-25`, `cardinality.rs:17-30`): merging keeps the name of
  the placeholder, so that a shape mentioned before its declaration loses its label; colons of names become underscores in files,
  so that `a:b_c` and `a_b:c` have one file; intervals become `Fixed` of their lower bound, whose text is `todo!()`, and the arm for
  ranges is never reached; negated and inverse constraints are shown as others.
* C145 (`load_data.rs:178-190,267-271,278-315`, `data_operations_trait.rs:23`): with replacement asked for, each input replaces the
  one before, so only the last is left (`Load.C145_replaced_refuted`). A call that fails leaves inputs before the failing one loaded,
  and a wrong endpoint loses the data there were, since they are reset first (`Load.C145_atomic_refuted`). Addresses of endpoints that
  differ in the case of the path, or in `http` and `https`, are taken for one (`Load.C145_address_refuted`). The documentation says an
  endpoint overrides inputs; the call with both fails (`Load.C145_override_refuted`). A call without inputs that declares prefixes
  panics if there are no RDF data (`Load.C145_panic`).
* C146 (`input_spec.rs:214-257`, `load_data.rs:138`, `prefix_header.rs:14-15`): the documentation says existing files become paths and
  everything else a string; a file with a space in its name becomes a string and a word that names no file is an error
  (`Load.C146_source_refuted`). `PREFIX ex: <...>` declares a prefix named `PREFIX ex`, and a declaration with a full stop is refused
  (`Load.C146_keyword_refuted`). A default prefix is held back if its declaration stands at the start of a line inside a literal
  (`Load.C146_header_refuted`).
* C147 (`output.rs:96-159`, `198-221`): files of earlier runs with numbers beyond the parts that are written are kept, and listed if
  their numbers are within the configured count (`Gen.C147_list_refuted`); the list announces the configured number of files even
  if fewer are written (`Gen.C147_total_refuted`); if there are no triples nothing is written, neither statistics nor list, and the
  files of an earlier run stay (`Gen.C147_empty_refuted`).
* C148 (`regex.rs:59-95`, `cond_kind.rs:203-207`): against XPath, `x` has an effect together with `q` (`Regex.C148_quoted_refuted`), a
  number sign starts a comment with `x` (`Regex.C148_comment_refuted`), a dot matches carriage returns without `s`
  (`Regex.C148_return_refuted`), and with `m` a line starts after a line feed at the end of the text (`Regex.C148_end_refuted`).
  ShEx puts flags in front of the pattern, so with `q`, which the crate does not know, and with repeated flags the expression is
  invalid and nothing matches (`Regex.C148_shex_quoted_refuted`, `Regex.C148_shex_repeated_refuted`).
* C149 (`shexr_parser.rs:97-233`): reading a shape expression never fails (`Shexr.C149_no_errors`), as node constraints have only
  optional parts and their type is not looked at. `sx:ShapeNot`, `sx:ShapeExternal`, references and datatypes are read as the empty
  node constraint (`Shexr.C149_lost`). `parse_nodekind` leaves the focus at the kind, so values beside it are lost
  (`Shexr.C149_values_lost`, `Shexr.C149_read_refuted`). One literal in a set of values makes the whole set disappear
  (`Shexr.C149_literals_lost`). Of shapes only `sx:closed` is read (`Shexr.C149_contents_lost`), of schemas
  only `sx:shapes`. Expressions that contain themselves are read without end (`Shexr.C149_no_end`).
* C150 (`index_builder.rs:654-662`): `shell_quote` leaves the empty text as it is, so an empty argument vanishes from the command and
  the next one takes its place (`Qlever.C150_words_refuted`). Directories of the host with a colon make a text of a mount with too many
  parts (`index_builder.rs:171,198`, `Qlever.C150_colon_refuted`).
* C151 (`config.rs:281-284`, `index_builder.rs:80-83`): with `index_dir` set, an index that is there is served whatever inputs are asked
  for (`Qlever.C151_directory_refuted`). Fingerprints are of paths only, so a file that changed is not indexed again
  (`Qlever.C151_written_refuted`). Names of graphs are hashed without separators (`index_builder.rs:602-607`), so inputs in a graph
  named `bz2` are taken for compressed ones (`Qlever.C151_graph_refuted`).
* C152 (`graph_container.rs:91-97`, `server.rs:43-46`): "created" means that the index was not finished before, and the whole
  directory is removed. With `index_dir` set to a directory of the user, `auto_delete_if_created` removes all their files there, the
  inputs included (`Qlever.C152_files_refuted`).
* C153 (`index_builder.rs:702-706`): `a/x.jsonld` and `b/x.jsonld` are converted to the same file, and the first is lost
  (`Qlever.C153_stem_refuted`). With `index_dir` set, files there with the name of a converted one are overwritten
  (`Qlever.C153_files_refuted`). The `format` argument is said to override extensions (`graph_container.rs:64-65`), but for compressed
  files it is ignored (`Qlever.C153_format_refuted`).
* C154 (`server.rs:261-272`): `shell_quote` gives nothing for an empty text, so with an empty access token (or any other empty text)
  the next flag is taken as its value (`Qlever.C154_token_refuted`).
* C155 (`index_builder.rs:442-456`): a decompressor that is still running five seconds after the container has ended, or that cannot be
  waited for, gets `ExitStatus::default()`, which is success (`Qlever.OneShot.C155_fed_refuted`). "Remove the container after"
  (`index_builder.rs:228`) does not hold when it cannot be attached to or started, the decompressor cannot be spawned, or feeding fails
  (`index_builder.rs:258`, `:335-350`, `:435-439`; `Qlever.OneShot.C155_left_refuted`).
* C156 (`index_builder.rs:80-83`, `:464-472`): when a decompressor fails, the builder sees the end of its input and finishes an index of
  what it read. The load is an error, but the index is kept, and the next load serves it (`Qlever.OneShot.C156_truncated_refuted`).
* C157 (`decompressor.rs:217`, `:150`): "the absolute path" of a program is relative for relative and empty names of directories in
  `PATH` (`Qlever.Probe.C157_absolute_refuted`).
* C158 (`config.rs:78-79`, `index_builder.rs:534-574`): "the usual human-readable suffixes" of Docker's `--memory` have `b`, which is an
  error here (`Qlever.Size.C158_docker_refuted`). `gb`, `mb` and `kb` are errors too, though `g`, `m` and `k` are not.
* C159 (`server.rs:220`, `:230`): "returns 200 OK" is any status of success. A timeout so large that the deadline is no instant panics
  (`server.rs:223`).
* C160 (`graph_container.rs:135-145`): with `index_dir` set, a second stream is served with the index of the first
  (`Qlever.C160_directory_refuted`), after `input.nt` or `input.nq` there was overwritten. Without it, the directory is named after a
  temporary path, so that the index is never used again.
* C161 (`graph_container.rs:89`, `:571-585`, `:141`): prefixes are collected by the extension of the path, also when a format is given
  (`Qlever.C161_format_refuted`) and when the file is compressed (`Qlever.C161_compressed_refuted`). Streams are always converted to
  N-Triples or N-Quads first, also Turtle, so that no stream has prefixes (`Qlever.C161_reader_lost`).
* C162 (`middleware.rs:109-113`): an `Origin` with `]` before the first `[` makes the slice panic (`Mcp.C162_panics`,
  `Mcp.C162_panic_refuted`). Paths and users are not told from hosts, so that `http://example.org/[::1]` and
  `http://localhost:80@example.org` pass (`Mcp.C162_host_refuted`); browsers send neither.
* C163 (`logging.rs:102-115`): "maximum number per time window" is that of fixed windows; twice as many may be sent in the time of one
  (`Mcp.Log.C163_window_refuted`). `MAX_TEXT_FIELD_CHARS` is said to be for free-text fields, but only the message is cut
  (`Mcp.Log.C163_fields_refuted`).
* C164 (`state.rs:165-170`): the `BufWriter` is dropped and not flushed, so that the error of the last write is lost and the rename
  replaces the good state by a truncated one, with `Ok` (`Mcp.State.C164_full_refuted`, `Mcp.State.C164_ok_refuted`). A state shorter
  than 8192 bytes never sees an error of writing (`Mcp.State.C164_small`). A path with extension `tmp` is truncated in place (`Mcp.State.C164_tmp_refuted`).
* C165 (`pagination.rs:15`): cursors are read as numbers, so that `+20` and `0020` are cursors too.
* C166 (`helpers.rs:161`): the fence has always three backticks, so that a line of the text with as many ends the block
  (`Mcp.Pages.C166_fence_refuted`).
* C167 (`data_tools_impl.rs:168-174`, `load_data.rs:31`): the tool calls `with_data` always and `with_endpoint` if there is one, and the
  loader refuses both. So no call with an endpoint succeeds (`Mcp.Loading.C167_endpoint`), also not the one that the message of the tool
  gives as an example (`Mcp.Loading.C167_endpoint_refuted`).
* C168 (`data_tools_impl.rs:226-232`): the comment says that `persist_state_with` takes the lock again and would block; with the text
  given it does not take it. As the lock is released before, two calls may save in the wrong order
  (`Mcp.Loading.C168_race_refuted`). A call that fails at its second source leaves the first in the data only
  (`Mcp.Loading.C168_failed_refuted`).
* C169 (`helpers.rs:766-777`): the kind of a query is guessed from its words, comments and prologue included. `# describe` before a
  SELECT query has it refused (`Mcp.Asking.C169_select_refuted`); `DESCRIBE<a>` is no keyword and is run
  (`Mcp.Asking.C169_describe_refuted`), as is `SELECT*` in a format that the tool says is not supported.
* C169 (`query_tools_impl.rs:273-281`): the preview looks for the names `jsonld` and `rdfxml`, and the formats are displayed as `json-ld`
  and `rdf-xml`; these results are shown as plain text. (Not modelled.)
* C170 (`query_tools_impl.rs:99`): a fence counts only as the very first characters of the answer; after an end of a line, as language
  models often write, the fences stay in the query (`Mcp.Asking.C170_refuted`).
* C171 (`shex_validate_tools_impl.rs:66-68, 167-190`): the documentation says that with `strict_iris` a node without brackets causes a
  parse error. The text `http://…@shape` is passed to `InputSpec::from_str`, which takes it for a URL, and the shape map is requested from
  the server of the node (`Mcp.Mapping.C171_strict_refuted`).
* C171 (`shex_validate_tools_impl.rs:21-24`): a literal such as `"http://e/"` is put into brackets
  (`Mcp.Mapping.C171_literal_refuted`). Lines 360-362 call a shape map that was given auto-generated if there is also a node
  (`Mcp.Mapping.C171_summary_refuted`).
* C172 (`node_tools_impl.rs:203-224`, `show_node_info.rs:397-406`): trees are written with no sign and three blanks below the last of
  siblings, and the depth is counted by four blanks. So such arcs have a depth that is too small, and are told to be direct arcs of the
  node (`Mcp.Arcs.C172_depth_refuted`). Texts of literals are cut at the end of a line (`Mcp.Arcs.C172_lines_refuted`).
