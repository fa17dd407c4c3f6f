{
 "claims": [
  {
   "property": "C01",
   "status": "partial",
   "theorems": [
    "Dg.DG.c01_every_edge_has_layers",
    "Dg.DG.c01_every_node_has_layers_partial",
    "Dg.DG.c01_node_layers_nonempty_partial",
    "Dg.DG.c01_fails_for_plain_ids_with_layers_kwarg",
    "Dg.DG.c01_fails_for_empty_set_in_tuple"
   ],
   "note": "Edges: proved for all histories, including failing calls. Nodes: proved for histories in which add_nodes_from is not called with plain IDs plus a layers keyword. That call stores the given object unchecked, so the full claim is false; c01_fails_* are the kernel-checked counterexamples."
  },
  {
   "property": "C02",
   "status": "partial",
   "theorems": [
    "Dg.DG.c02_growth_keeps_nodes_edges_edge_layers",
    "Dg.DG.c02_growth_keeps_node_layers_partial",
    "Dg.DG.c02_fails_for_plain_ids_with_layers_kwarg"
   ],
   "note": "Nodes, edges and edge layers: all histories. Node layers: all histories without the overwriting add_nodes_from call (counterexample c02_fails_for_plain_ids_with_layers_kwarg shows that the full claim is false of the code)."
  },
  {
   "property": "C03",
   "status": "proved",
   "theorems": [
    "Dg.DG.c03_add_node_succeeds",
    "Dg.DG.c03_add_node",
    "Dg.DG.c03_add_node_failure",
    "Dg.DG.c03_bad_layers_raise"
   ],
   "note": ""
  },
  {
   "property": "C04",
   "status": "proved",
   "theorems": [
    "Dg.DG.c04_add_edge_succeeds",
    "Dg.DG.c04_add_edge_without_key",
    "Dg.DG.c04_add_edge_with_key",
    "Dg.DG.c04_add_edge_failure"
   ],
   "note": ""
  },
  {
   "property": "C05",
   "status": "proved",
   "theorems": [
    "Dg.DG.c05_layers_are_union",
    "Dg.DG.c05_order_independent"
   ],
   "note": ""
  },
  {
   "property": "C06",
   "status": "proved",
   "theorems": [
    "Dg.DG.c06_add_edges_from",
    "Dg.DG.c06_succeeds",
    "Dg.DG.c06_keyed_tuple",
    "Dg.DG.c06_bad_tuple"
   ],
   "note": ""
  },
  {
   "property": "C07",
   "status": "partial",
   "theorems": [
    "Dg.DG.c07_add_layer_node",
    "Dg.DG.c07_add_layer_edge",
    "Dg.DG.c07_add_layer_refused",
    "Dg.Heap.c07_heap_add_layer_node_partial",
    "Dg.Heap.c07_heap_add_layer_edge_partial",
    "Dg.Heap.c07_heap_add_node_partial",
    "Dg.Heap.c07_heap_add_edge_partial",
    "Dg.Heap.c07_fails_for_shared_set",
    "Dg.Heap.c07_fails_for_shared_dict"
   ],
   "note": "Value-level effect proved for all graphs. With object identities (heap model) the claim holds for clients that do not pass the graph the same set/dict object twice; c07_fails_for_shared_set/_dict show that the full claim (all ways the graph was built) is false of the code."
  },
  {
   "property": "C08",
   "status": "proved",
   "theorems": [
    "Dg.DG.c08_select_nodes_by_layer",
    "Dg.DG.c08_select_nodes_by_layer_data"
   ],
   "note": ""
  },
  {
   "property": "C09",
   "status": "proved",
   "theorems": [
    "Dg.DG.c09_select_nodes_by_attribute"
   ],
   "note": ""
  },
  {
   "property": "C10",
   "status": "proved",
   "theorems": [
    "Dg.DG.c10_select_neighbors_by_layer",
    "Dg.DG.c10_select_neighbors_by_edge_attribute"
   ],
   "note": ""
  },
  {
   "property": "C11",
   "status": "proved",
   "theorems": [
    "Dg.DG.c11_edges_lists_every_edge_once",
    "Dg.DG.c11_select_edges_by_attribute",
    "Dg.DG.c11_select_edges_by_attribute_values",
    "Dg.DG.c11_select_edges_by",
    "Dg.DG.c11_fails_if_an_edge_lacks_edge_type"
   ],
   "note": ""
  },
  {
   "property": "C12",
   "status": "proved",
   "theorems": [
    "Dg.DG.c12_get_annotation_layers",
    "Dg.DG.c12_get_top_level_layers"
   ],
   "note": ""
  },
  {
   "property": "C13",
   "status": "proved",
   "theorems": [
    "Dg.DG.c13_offsets_index_text"
   ],
   "note": ""
  },
  {
   "property": "C14",
   "status": "partial",
   "theorems": [
    "Dg.DG.c14_offsets_on_demand",
    "Dg.DG.c14_non_token_raises",
    "Dg.DG.c14_all_offsets_partial",
    "Dg.DG.c14_fails_lazy_generator",
    "Dg.DG.c14_fails_unknown_node"
   ],
   "note": "Single token and idempotence: proved. get_offsets() without a token: proved once offsets are stored; when they are not, the generator raises (c14_fails_lazy_generator). Unknown node IDs raise KeyError, not AssertionError (c14_fails_unknown_node)."
  },
  {
   "property": "C15",
   "status": "proved",
   "theorems": [
    "Dg.DG.c15_span_offsets",
    "Dg.DG.c15_is_continuous",
    "Dg.DG.c15_no_tokens"
   ],
   "note": ""
  },
  {
   "property": "C16",
   "status": "proved",
   "theorems": [
    "Dg.DG.c16_span_is_dominated_tokens",
    "Dg.DG.c16_span_terminates",
    "Dg.DG.c16_span_nodup_on_trees",
    "Dg.DG.c16_span_nodup_below_trees",
    "Dg.DG.c16_span_diverges_on_cycles",
    "Dg.DG.c16_fails_nodup_on_dags"
   ],
   "note": ""
  },
  {
   "property": "C17",
   "status": "proved",
   "theorems": [
    "Dg.DG.c17_text_is_joined_tokens",
    "Dg.DG.c17_text_of_tokens",
    "Dg.DG.c17_split_text"
   ],
   "note": ""
  },
  {
   "property": "C18",
   "status": "proved",
   "theorems": [
    "Dg.DG.c18_chains_follow_pointing_relations"
   ],
   "note": ""
  },
  {
   "property": "C19",
   "status": "proved",
   "theorems": [
    "Dg.DG.c19_chains_are_the_maximal_paths",
    "Dg.DG.c19_every_relation_in_some_chain",
    "Dg.DG.c19_diverges_on_cycles"
   ],
   "note": ""
  },
  {
   "property": "C20",
   "status": "proved",
   "theorems": [
    "Dg.c20_total_preorder",
    "Dg.c20_sorted",
    "Dg.c20_numbered_ids_sort_numerically"
   ],
   "note": ""
  },
  {
   "property": "C21",
   "status": "partial",
   "theorems": [
    "Dg.DG.c21_maps_position_by_position",
    "Dg.DG.c21_mismatch_raises_partial",
    "Dg.DG.c21_fails_when_first_document_is_longer"
   ],
   "note": "Mapping: proved. A longer first document is accepted silently (counterexample), so the mismatch half is partial."
  },
  {
   "property": "C22",
   "status": "partial",
   "theorems": [
    "Dg.DG.c22_relabel_nodes_partial",
    "Dg.DG.c22_relabel_nodes_overlapping_partial",
    "Dg.DG.c22_unknown_label_raises",
    "Dg.DG.c22_fails_for_identity_mapping",
    "Dg.DG.c22_fails_for_falsy_label_with_self_loop"
   ],
   "note": "Proved for non-identity mappings in every processing order, also with overlapping labels. Nodes mapped to themselves are deleted by the code, and falsy labels with self loops lose edges (counterexamples)."
  },
  {
   "property": "C23",
   "status": "partial",
   "theorems": [
    "Dg.DG.c23_merge_keeps_graph_partial",
    "Dg.DG.c23_merge_result_is_reachable",
    "Dg.DG.c23_merge_keeps_text_partial",
    "Dg.DG.c23_merge_keeps_text_same_namespace_partial",
    "Dg.DG.c23_fails_for_equal_root_ids"
   ],
   "note": "Proved for all pairs, outcomes and processing orders; exceptions: the two graphs share a root ID, or share node IDs that carry token attributes (counterexample)."
  },
  {
   "property": "C24",
   "status": "partial",
   "theorems": [
    "Dg.DG.c24_merge_imports_partial",
    "Dg.DG.c24_fails_for_layers_of_root_edges",
    "Dg.DG.c24_fails_for_equal_token_ids",
    "Dg.DG.c24_merging_twice_duplicates_edges"
   ],
   "note": "Proved for graphs with disjoint node IDs. Layers of edges leaving the root and graphs with equal token IDs are counterexamples."
  },
  {
   "property": "C25",
   "status": "proved",
   "theorems": [
    "Dg.DG.c25_add_precedence_relations",
    "Dg.DG.c25_short_documents_refused"
   ],
   "note": ""
  },
  {
   "property": "C26",
   "status": "proved",
   "theorems": [
    "Dg.c26_kwic_window",
    "Dg.c26_index_error"
   ],
   "note": ""
  },
  {
   "property": "C27",
   "status": "proved",
   "theorems": [
    "Dg.c27_token_mapper_is_bijection",
    "Dg.c27_segment_offsets",
    "Dg.c27_segment_errors"
   ],
   "note": ""
  },
  {
   "property": "C28",
   "status": "partial",
   "theorems": [
    "Dg.c28_expands_partial",
    "Dg.c28_rejects_mixed_prefixes",
    "Dg.c28_result_shares_prefix",
    "Dg.c28_fails_for_leading_zeros",
    "Dg.c28_empty"
   ],
   "note": "Full for IDs and ranges without leading zeros; ranges with leading zeros lose them (counterexample)."
  },
  {
   "property": "C29",
   "status": "partial",
   "theorems": [
    "Dg.c29_round_trip",
    "Dg.c29_line_breaks_raise",
    "Dg.c29_quote_injective",
    "Dg.c29_inner_quotes_escaped_partial",
    "Dg.c29_closing_quote_partial",
    "Dg.c29_fails_for_backslash_before_quote"
   ],
   "note": "Reversibility: proved for all strings. 'No unescaped inner quote' fails when a backslash precedes a quote (counterexample)."
  },
  {
   "property": "C30",
   "status": "proved",
   "theorems": [
    "Dg.DG.c30_freqt_of_tree",
    "Dg.DG.c30_decodable",
    "Dg.DG.c30_injective",
    "Dg.DG.c30_freqt_total",
    "Dg.DG.c30_one_line_per_sentence",
    "Dg.DG.c30_int_id_raises",
    "Dg.DG.c30_escape_not_injective"
   ],
   "note": ""
  },
  {
   "property": "C31",
   "status": "partial",
   "theorems": [
    "Dg.DG.c31_sorted_bfs_edges",
    "Dg.DG.c31_sorted_bfs_edges_total_partial",
    "Dg.DG.c31_fails_uncovered_node",
    "Dg.DG.c31_fails_parallel_edges",
    "Dg.DG.c31_sorted_bfs_successors"
   ],
   "note": "Each reachable node once: proved. Totality needs a forest in which every node covers a token; uncovered nodes raise and parallel edges are yielded twice (counterexamples)."
  },
  {
   "property": "C32",
   "status": "proved",
   "theorems": [
    "Dg.c32_elements",
    "Dg.c32_file",
    "Dg.c32_relations",
    "Dg.c32_type_of_last_occurrence",
    "Dg.c32_rejects_two_satellites"
   ],
   "note": ""
  },
  {
   "property": "C33",
   "status": "proved",
   "theorems": [
    "Dg.c33_roundtrip",
    "Dg.c33_fails_equal_edus",
    "Dg.c33_fails_empty_edu",
    "Dg.c33_fails_blanks",
    "Dg.c33_fails_span",
    "Dg.c33_fails_after_span",
    "Dg.c33_fails_two_types"
   ],
   "note": ""
  },
  {
   "property": "C34",
   "status": "partial",
   "theorems": [
    "Dg.c34_write",
    "Dg.c34_read",
    "Dg.c34_roundtrip_partial",
    "Dg.c34_words",
    "Dg.c34_part_example",
    "Dg.c34_example_wf",
    "Dg.c34_example_marks",
    "Dg.c34_fails_single_edu",
    "Dg.c34_fails_blank",
    "Dg.c34_fails_mark",
    "Dg.c34_fails_relation_name"
   ],
   "note": "Proved except for the cases in which the code fails: one-EDU documents, blank EDUs, EDUs with '_!', relations called N or S (counterexamples)."
  },
  {
   "property": "C35",
   "status": "proved",
   "theorems": [
    "Dg.c35_hilda",
    "Dg.c35_hilda_only",
    "Dg.c35_hilda_edus",
    "Dg.c35_hilda_rejects",
    "Dg.c35_stagedp",
    "Dg.c35_stagedp_edus",
    "Dg.c35_stagedp_only",
    "Dg.c35_dplp_edus",
    "Dg.c35_dplp",
    "Dg.c35_dplp_leaves",
    "Dg.c35_merge_example"
   ],
   "note": ""
  },
  {
   "property": "C36",
   "status": "partial",
   "theorems": [
    "Dg.c36_convert_partial",
    "Dg.c36_edus_partial",
    "Dg.c36_fails_multisat",
    "Dg.c36_edu0",
    "Dg.c36_edu1",
    "Dg.c36_edu2",
    "Dg.c36_example",
    "Dg.c36_fails_example"
   ],
   "note": "Proved for all parses without nuclei that have several satellites; those raise an exception (counterexample)."
  },
  {
   "property": "C37",
   "status": "partial",
   "theorems": [
    "Dg.c37_schema",
    "Dg.c37_edus",
    "Dg.c37_text_order_partial",
    "Dg.c37_total",
    "Dg.c37_fails_duplicate_text",
    "Dg.c37_fails_equal_text"
   ],
   "note": "Content and relation names: proved. Text order: proved if EDU texts are distinct; the code looks up positions by text, so equal texts are reordered or rejected (counterexamples)."
  },
  {
   "property": "C38",
   "status": "partial",
   "theorems": [
    "Dg.DG.c38_lines",
    "Dg.DG.c38_offsets_point_at_text_partial",
    "Dg.DG.c38_own_numbers_partial",
    "Dg.DG.c38_relations_refer_to_lines",
    "Dg.DG.c38_span_tokens",
    "Dg.DG.c38_format",
    "Dg.DG.c38_fails_for_discontinuous_spans",
    "Dg.DG.c38_fails_for_shared_markables",
    "Dg.DG.c38_fails_for_foreign_tokens"
   ],
   "note": "Line format, relations and existence of T numbers proved. Offsets: contiguous markables only; numbers: markables in one chain only (counterexamples)."
  },
  {
   "property": "C39",
   "status": "partial",
   "theorems": [
    "Dg.DG.c39_brackets_balanced",
    "Dg.DG.c39_closes_right_markables_partial",
    "Dg.DG.c39_chain_ids",
    "Dg.DG.c39_text",
    "Dg.DG.c39_fails_for_crossing_spans",
    "Dg.DG.c39_fails_for_equal_starts",
    "Dg.DG.c39_fails_for_reversed_spans"
   ],
   "note": "Balance and text: proved. Identity of the closed markable: nested spans only (counterexamples)."
  },
  {
   "property": "C40",
   "status": "partial",
   "theorems": [
    "Dg.DG.c40_rows_of_spans",
    "Dg.DG.c40_rows_partial",
    "Dg.DG.c40_chain_numbers",
    "Dg.DG.c40_format",
    "Dg.DG.c40_fails_on_dags"
   ],
   "note": "Format: proved for every graph. Rows: for graphs where a token is not reached from a markable over two paths (counterexample c40_fails_on_dags)."
  },
  {
   "property": "C41",
   "status": "partial",
   "theorems": [
    "Dg.DG.c41_token_range",
    "Dg.DG.c41_import",
    "Dg.DG.c41_import_annotations",
    "Dg.DG.c41_import_no_other_annotations",
    "Dg.DG.c41_import_spans",
    "Dg.DG.c41_export",
    "Dg.DG.c41_roundtrip_partial",
    "Dg.DG.c41_fails_extra_token",
    "Dg.DG.c41_fails_token_layer",
    "Dg.DG.c41_fails_tok_layer",
    "Dg.DG.c41_fails_int_attribute",
    "Dg.DG.c41_fails_unordered_ids"
   ],
   "note": "Writer, reader and gen_token_range: proved. Round trip: tokens, attributes and spans up to one additional last token, layers and attributes ending in ':tok', non-string attributes and document order of IDs (counterexamples)."
  },
  {
   "property": "C42",
   "status": "partial",
   "theorems": [
    "Dg.DG.c42_read",
    "Dg.DG.c42_words",
    "Dg.DG.c42_write",
    "Dg.DG.c42_refused",
    "Dg.DG.c42_roundtrip_partial",
    "Dg.DG.c42_fails_certainty",
    "Dg.DG.c42_fails_other_word",
    "Dg.DG.c42_fails_context"
   ],
   "note": "Reader and writer: proved. Round trip: certainty, annotations of the other word and text around an annotation are lost (counterexamples)."
  },
  {
   "property": "C43",
   "status": "partial",
   "theorems": [
    "Dg.DG.c43_ids",
    "Dg.DG.c43_read",
    "Dg.DG.c43_missing_attribute",
    "Dg.DG.c43_check",
    "Dg.DG.c43_separated",
    "Dg.DG.c43_span_partial",
    "Dg.DG.c43_connective_partial",
    "Dg.DG.c43_units_partial",
    "Dg.DG.c43_fails_glued",
    "Dg.DG.c43_fails_nbsp",
    "Dg.DG.c43_fails_modifiers"
   ],
   "note": "Tokens, order, attachment and the check: proved. Spans, units and connectives: if elements have different IDs; two modifiers of one connective are merged (counterexample)."
  },
  {
   "property": "C44",
   "status": "proved",
   "theorems": [
    "Dg.DG.c44_node_statistics",
    "Dg.DG.c44_edge_statistics",
    "Dg.c44_printed_in_descending_order",
    "Dg.c44_equal_counts_keep_order"
   ],
   "note": ""
  },
  {
   "property": "C45",
   "status": "proved",
   "theorems": [
    "Dg.c45_xpointer",
    "Dg.c45_xpointer_int",
    "Dg.c45_xpointer_not_injective",
    "Dg.c45_add_prefix",
    "Dg.c45_single_pass",
    "Dg.c45_order_independent",
    "Dg.c45_empty_dict_raises"
   ],
   "note": ""
  },
  {
   "property": "C46",
   "status": "proved",
   "theorems": [
    "Dg.DG.c46_layerset2list",
    "Dg.DG.c46_layerset2str",
    "Dg.DG.c46_attriblist2str",
    "Dg.DG.c46_remove_root_metadata",
    "Dg.DG.c46_remove_root_metadata_needs_root"
   ],
   "note": ""
  },
  {
   "property": "C47",
   "status": "partial",
   "theorems": [
    "Dg.DG.c47_preprocess_for_pydot_partial",
    "Dg.DG.c47_other_labels_refused",
    "Dg.DG.c47_fails_for_int_and_str_ids"
   ],
   "note": "Proved except for graphs in which an int ID and a string ID have the same text, which are merged (counterexample)."
  },
  {
   "property": "C48",
   "status": "proved",
   "theorems": [
    "Dg.DG.c48_convert_to_geoff"
   ],
   "note": ""
  },
  {
   "property": "C49",
   "status": "proved",
   "theorems": [
    "Dg.DG.c49_gexf",
    "Dg.DG.c49_graphml",
    "Dg.DG.c49_other_dictionaries_stay"
   ],
   "note": ""
  },
  {
   "property": "C50",
   "status": "partial",
   "theorems": [
    "Dg.DG.c50_make_labels_explicit_partial",
    "Dg.DG.c50_fails_for_parallel_edges"
   ],
   "note": "Proved for graphs without parallel edges; with parallel edges the code appends the type several times to one edge (counterexample)."
  },
  {
   "property": "C51",
   "status": "partial",
   "theorems": [
    "Dg.DG.c51_ptb_of_tree",
    "Dg.DG.c51_decodable_partial",
    "Dg.DG.c51_fails_bracket_in_token"
   ],
   "note": "Tree shape, order and balance: proved. Decoding: only without brackets in tokens and labels, as the code does not escape them (counterexample)."
  },
  {
   "property": "C52",
   "status": "proved",
   "theorems": [
    "Dg.c52_edus",
    "Dg.c52_fails_no_parent",
    "Dg.c52_fails_cycle",
    "Dg.c52_fails_no_relname"
   ],
   "note": ""
  },
  {
   "property": "C53",
   "status": "proved",
   "theorems": [
    "Dg.DG.c53_read",
    "Dg.DG.c53_accepts_only",
    "Dg.DG.c53_blocks",
    "Dg.DG.c53_fails_empty",
    "Dg.DG.c53_heads",
    "Dg.DG.c53_fails_blank_lines",
    "Dg.DG.c53_fails_crlf",
    "Dg.DG.c53_fails_token_feature",
    "Dg.DG.c53_fails_cycle",
    "Dg.DG.c53_feature_unique"
   ],
   "note": "Format conditions are part of the property; c53_fails_* show files outside of it (second blank line, CRLF, empty file) being rejected, a 'token=' feature replacing the token string and non-termination of traverse_dependencies_up on cycles."
  },
  {
   "property": "C54",
   "status": "partial",
   "theorems": [
    "Dg.DG.c54_roundtrip_partial",
    "Dg.DG.c54_fails_extra_sentence",
    "Dg.DG.c54_fails_empty_sentence",
    "Dg.DG.c54_fails_line_break",
    "Dg.DG.c54_fails_tab"
   ],
   "note": "Proved for documents without empty sentences and without tabs/line breaks in tokens, up to one additional empty sentence that the reader makes of the last line; each exclusion has a counterexample."
  },
  {
   "property": "C55",
   "status": "partial",
   "theorems": [
    "Dg.DG.c55_reads_valid_files_partial",
    "Dg.DG.c55_nodes",
    "Dg.DG.c55_terminal_attributes",
    "Dg.DG.c55_nonterminal_attributes",
    "Dg.DG.c55_layers",
    "Dg.DG.c55_edges",
    "Dg.DG.c55_tokens",
    "Dg.DG.c55_token_strings_partial",
    "Dg.DG.c55_sentences",
    "Dg.DG.c55_connected",
    "Dg.DG.c55_fails_other_namespace",
    "Dg.DG.c55_fails_secedge_without_edge",
    "Dg.DG.c55_fails_secedge_label",
    "Dg.DG.c55_fails_one_token",
    "Dg.DG.c55_fails_secedge_only",
    "Dg.DG.c55_fails_forward_reference"
   ],
   "note": "Proved for all valid files; partial since a secondary edge of a nonterminal in a sentence without an earlier <edge> raises (UnboundLocalError), and token strings are only accessible in the namespace 'tiger' (c55_fails_*): sentences are always read with namespace 'tiger'; a secedge gets the label of the previous edge; one-token sentences share one virtual root; nodes referred to only by secedges stay unreachable; nodes referred to before they are defined keep the layer 'secedge'."
  },
  {
   "property": "C56",
   "status": "partial",
   "theorems": [
    "Dg.DG.c56_unconnected",
    "Dg.DG.c56_terminals_split",
    "Dg.DG.c56_terminals_of_sentence_partial",
    "Dg.DG.c56_subordinate_edges",
    "Dg.DG.c56_subordinate_clauses_partial",
    "Dg.DG.c56_fails_other_namespace",
    "Dg.DG.c56_fails_terminal_secedge",
    "Dg.DG.c56_fails_virtual_root"
   ],
   "note": "Exact for all graphs; in terms of the file partial: with another namespace words count as subordinate clauses, terminals with secondary edges count as nonterminals, the virtual root of a one-word sentence counts as terminal (c56_fails_*)."
  },
  {
   "property": "C57",
   "status": "partial",
   "theorems": [
    "Dg.DG.c57_reads",
    "Dg.DG.c57_nodes",
    "Dg.DG.c57_root",
    "Dg.DG.c57_edus",
    "Dg.DG.c57_edges",
    "Dg.DG.c57_tree",
    "Dg.DG.c57_tokens",
    "Dg.DG.c57_segment",
    "Dg.DG.c57_text",
    "Dg.DG.c57_group",
    "Dg.DG.c57_layers",
    "Dg.DG.c57_segment_type",
    "Dg.DG.c57_nucleus_partial",
    "Dg.DG.c57_fails_nucleus",
    "Dg.DG.c57_fails_two_roots",
    "Dg.DG.c57_fails_namespace"
   ],
   "note": "Exact for all files with unique colon-free IDs, existing parents and at most one root group; partial: segment_type 'nucleus' depends on the document order, a second root group removes the first one with its edges, layers of token edges are hard-coded 'rst' (c57_fails_*)."
  },
  {
   "property": "C58",
   "status": "partial",
   "theorems": [
    "Dg.DG.c58_element_span",
    "Dg.DG.c58_relation_roots",
    "Dg.DG.c58_relations_partial",
    "Dg.DG.c58_spans_partial",
    "Dg.DG.c58_fails_precedence",
    "Dg.DG.c58_fails_namespace",
    "Dg.DG.c58_fails_empty",
    "Dg.DG.c58_fails_multinuc",
    "Dg.DG.c58_fails_undeclared"
   ],
   "note": "Exact for files read with namespace 'rst', without precedence edges; partial: hard-coded namespace, precedence edges are followed by get_span, empty segments raise ValueError, undeclared relations count as relation roots, multinuclear relations may have satellites contrary to the documentation (c58_fails_*)."
  },
  {
   "property": "C59",
   "status": "partial",
   "theorems": [
    "Dg.DG.c59_reads",
    "Dg.DG.c59_nodes",
    "Dg.DG.c59_root",
    "Dg.DG.c59_edu",
    "Dg.DG.c59_span",
    "Dg.DG.c59_edges",
    "Dg.DG.c59_layers",
    "Dg.DG.c59_tokens",
    "Dg.DG.c59_tree",
    "Dg.DG.c59_complete_partial",
    "Dg.DG.c59_fails_complete",
    "Dg.DG.c59_fails_relation",
    "Dg.DG.c59_fails_span",
    "Dg.DG.c59_example_readable",
    "Dg.DG.c59_flat_part",
    "Dg.DG.c59_flat_wf",
    "Dg.DG.c59_flat_marks",
    "Dg.DG.c59_fails_satellite"
   ],
   "note": "Exact content of the graph for all well-formed structures without `_!`; partial: the first part of every relation below the top one is dropped with its text, relations of EDUs are dropped, satellites made of a nucleus and a satellite raise NotImplementedError, get_span raises KeyError on EDUs (c59_fails_*)."
  },
  {
   "property": "C60",
   "status": "partial",
   "theorems": [
    "Dg.DG.c60_reads_partial",
    "Dg.DG.c60_nodes",
    "Dg.DG.c60_segment",
    "Dg.DG.c60_relation",
    "Dg.DG.c60_undeclared",
    "Dg.DG.c60_tokens",
    "Dg.DG.c60_edges",
    "Dg.DG.c60_root",
    "Dg.DG.c60_tree",
    "Dg.DG.c60_fails_alternatives",
    "Dg.DG.c60_fails_nucleus_span",
    "Dg.DG.c60_fails_connected"
   ],
   "note": "Exact content of the graph for all documents with unique IDs, exact conditions for success and each exception, networkx dag_longest_path modelled and proved correct; partial: alternative analyses with swapped nucleus and satellite cannot be read, several top-level elements are not connected to the root, get_span of a nucleus contains the tokens of its satellite (c60_fails_*)."
  },
  {
   "property": "C61",
   "status": "partial",
   "theorems": [
    "Dg.DG.c61_content",
    "Dg.DG.c61_words",
    "Dg.DG.c61_tree",
    "Dg.DG.c61_keep_partial",
    "Dg.DG.c61_fails_traces",
    "Dg.DG.c61_fails_bare",
    "Dg.DG.c61_category_partial",
    "Dg.DG.c61_fails_category",
    "Dg.DG.c61_empty",
    "Dg.DG.c61_fails_limit",
    "Dg.DG.c61_example_ok",
    "Dg.DG.c61_example_phrase"
   ],
   "note": "Exact content of the graph (nodes, numbering, edges, attributes, layers, tokens, sentences) for all lists of syntax trees whose words stand inside parts of speech and are not '-NONE-'; partial: ignore_traces=False only affects direct parts of sentences, sentences and one-part phrases have no category, bare words raise KeyError, limit=0 reads everything (c61_fails_*)."
  },
  {
   "property": "C62",
   "status": "partial",
   "theorems": [
    "Dg.DG.c62_content_partial",
    "Dg.DG.c62_exact",
    "Dg.DG.c62_file_id",
    "Dg.DG.c62_no_sentence_level",
    "Dg.DG.c62_other_name",
    "Dg.DG.c62_missing_file",
    "Dg.DG.c62_fails_leak",
    "Dg.DG.c62_fails_label",
    "Dg.DG.c62_fails_order",
    "Dg.DG.c62_fails_sentences"
   ],
   "note": "Content of the graph for all projects with unique IDs and all orders of levels, exact up to additional layers (exact without qualified antecedents), conditions for KeyError, IOError, AssertionError; partial: qualified antecedents change the layers of all markables of the file through a shared set object, layers depend on the order of a set, projects without sentences cannot be read (c62_fails_*)."
  },
  {
   "property": "C63",
   "status": "partial",
   "theorems": [
    "Dg.DG.c63_content",
    "Dg.DG.c63_name",
    "Dg.DG.c63_once_partial",
    "Dg.DG.c63_tokens",
    "Dg.DG.c63_attributes",
    "Dg.DG.c63_word",
    "Dg.DG.c63_label",
    "Dg.DG.c63_token_lists",
    "Dg.DG.c63_dominance",
    "Dg.DG.c63_one_parent",
    "Dg.DG.c63_connected",
    "Dg.DG.c63_ignore",
    "Dg.DG.c63_no_pointing",
    "Dg.DG.c63_unknown",
    "Dg.DG.c63_fails_twice",
    "Dg.DG.c63_fails_loop",
    "Dg.DG.c63_fails_sentence"
   ],
   "note": "Content of the graph for all texts with known elements (exact, with multiplicities), tokens, attributes, one parent, connectedness, ignore options, unknown elements; partial: children of a word are read twice, so that coreference relations of pronouns are duplicated; self-loops of named entities; attributes of sentences are lost (c63_fails_*)."
  },
  {
   "property": "C64",
   "status": "partial",
   "theorems": [
    "Dg.DG.c64_content",
    "Dg.DG.c64_accepts",
    "Dg.DG.c64_text_partial",
    "Dg.DG.c64_fails_acts",
    "Dg.DG.c64_tree",
    "Dg.DG.c64_span",
    "Dg.DG.c64_annotations",
    "Dg.DG.c64_fails_root",
    "Dg.DG.c64_fails_text"
   ],
   "note": "Content, accepted documents (iff), annotations, tree, get_span for all documents; the text in order is proved for documents with at most one act per turn, at its beginning (c64_text_partial), and false otherwise (c64_fails_text, c64_fails_acts); leftover root node (c64_fails_root)."
  },
  {
   "property": "C65",
   "status": "partial",
   "theorems": [
    "Dg.c65_source_partial",
    "Dg.c65_export_is_injective_partial",
    "Dg.c65_bare_unit_rejected",
    "Dg.c65_fails_single_segment",
    "Dg.c65_fails_first_satellite_on_the_right",
    "Dg.c65_fails_command_in_text",
    "Dg.c65_fails_braces"
   ],
   "note": "Source and injectivity for structures without rst.sty commands in unit texts, relation names that are not N/S/MONONUC-MULTISAT, bundles with left satellites first; counterexamples for single segments, right-first bundles, commands and braces in texts (c65_fails_*)."
  },
  {
   "property": "C66",
   "status": "partial",
   "theorems": [
    "Dg.DG.c66_paula_export_partial",
    "Dg.DG.c66_references",
    "Dg.DG.c66_fails_to_exclude_root",
    "Dg.DG.c66_fails_for_ids_without_colon",
    "Dg.DG.c66_fails_for_other_values",
    "Dg.DG.c66_fails_for_colliding_ids",
    "Dg.DG.c66_fails_for_parallel_edges",
    "Dg.DG.c66_fails_for_ambiguous_rel_ids",
    "Dg.DG.c66_fails_for_empty_nodes",
    "Dg.DG.c66_fails_for_sublayers",
    "Dg.DG.c66_fails_for_layer_prefixes",
    "Dg.DG.c66_fails_for_names_with_dots"
   ],
   "note": "Content of all files for graphs with colon-separated, collision-free IDs, typed edges, string values and dotless plain layers; c66_fails_* show that each of these conditions is needed (general theorems for IDs without colon and for other values) and that the root is not excluded."
  },
  {
   "property": "C67",
   "status": "partial",
   "theorems": [
    "Dg.c67_read",
    "Dg.c67_write_read",
    "Dg.c67_read_write_partial",
    "Dg.c67_fails_for_elements_without_layers",
    "Dg.c67_fails_for_labels_without_value",
    "Dg.c67_label_from_scratch",
    "Dg.c67_hex",
    "Dg.c67_fails_hex"
   ],
   "note": "Reading characterised exactly; write-read identity for everything read; read-write identity for elements in the usual form with a layers attribute. Missing: elements without layers and labels without value (c67_fails_*), texts beyond Latin-1 (c67_fails_hex)."
  },
  {
   "property": "C68",
   "status": "partial",
   "theorems": [
    "Dg.c68_document",
    "Dg.c68_attributes",
    "Dg.c68_graph_built",
    "Dg.c68_graph_partial",
    "Dg.c68_fails_for_parallel_relations",
    "Dg.c68_fails_for_missing_ends",
    "Dg.c68_fails_for_other_types"
   ],
   "note": "Documents: exact. Graphs: full content without parallel relations and with all ends present; c68_graph_built says what is built otherwise. c68_fails_*: parallel relations are merged, missing ends become empty nodes, other types (pointing relations) cannot be read."
  },
  {
   "property": "C69",
   "status": "partial",
   "theorems": [
    "Dg.c69_linguistic_partial",
    "Dg.c69_fails_tokens_sentences_spans",
    "Dg.c69_errors",
    "Dg.c69_sentences",
    "Dg.c69_sentences_complete_partial",
    "Dg.c69_fails_for_unfinished_sentences"
   ],
   "note": "Offsets, dominance lists, text, ID proved; sentences as a function. Missing: tokens of spans, spans of tokens and sentences of documents, which no document ever gets (c69_fails_tokens_sentences_spans, general theorem), and tokens after the last full stop."
  },
  {
   "property": "C70",
   "status": "partial",
   "theorems": [
    "Dg.c70_read_partial",
    "Dg.c70_write",
    "Dg.c70_write_read_partial",
    "Dg.c70_part_example",
    "Dg.c70_example_wf",
    "Dg.c70_example_marks",
    "Dg.c70_example_escapes",
    "Dg.c70_example_names",
    "Dg.c70_parse",
    "Dg.c70_unbalanced",
    "Dg.c70_fails_escapes",
    "Dg.c70_fails_escaped_edu",
    "Dg.c70_fails_name",
    "Dg.c70_fails_empty_name",
    "Dg.c70_fails_lines",
    "Dg.c70_comments",
    "Dg.c70_codra_partial"
   ],
   "note": "Missing from the full claim: EDUs with the letters of escaped brackets (no tree read from any file contains -LRB-: c70_fails_escapes), marks or comments; EDUs in several lines; relation names that are empty or contain blanks; documents of one EDU; backslashes in CODRA files. c70_fails_* are witnesses."
  },
  {
   "property": "C71",
   "status": "partial",
   "theorems": [
    "Dg.DG.c71_fresh_partial",
    "Dg.DG.c71_orderings",
    "Dg.DG.c71_unknown_ordering",
    "Dg.DG.c71_relabel_partial",
    "Dg.DG.c71_fails_root",
    "Dg.DG.c71_fails_same_label",
    "Dg.DG.c71_fails_self_loop",
    "Dg.DG.c71_fails_layers"
   ],
   "note": "Missing from the full claim: a node that already has the number it would get, the label 0 for a node with an edge to itself, label_attribute=\"layers\", circular renamings (raise NetworkXUnfeasible). c71_fails_root (general): root and token list of the result are not numbered, so the root is no node of the result."
  },
  {
   "property": "C72",
   "status": "partial",
   "theorems": [
    "Dg.c72_brackets",
    "Dg.c72_unique",
    "Dg.c72_stagedp",
    "Dg.c72_stagedp_only",
    "Dg.c72_stagedp_rejects",
    "Dg.c72_fails_underscore",
    "Dg.c72_hs2015_partial",
    "Dg.c72_hs2015_missing",
    "Dg.c72_dplp_split",
    "Dg.c72_dplp_partial",
    "Dg.c72_dplp_no_tree",
    "Dg.c72_fails_word",
    "Dg.c72_evaluator"
   ],
   "note": "Missing from the full claim: nuclei with several satellites in Heilman/Sagae files (as C36); DPLP words or names with ParentedTree, quotes or backslashes; Python's eval is a parameter of which only the evaluation of tree expressions is assumed (c72_evaluator: satisfiable)."
  },
  {
   "property": "C73",
   "status": "partial",
   "theorems": [
    "Dg.c73_merge_layers_partial",
    "Dg.c73_patterns",
    "Dg.c73_files",
    "Dg.c73_document_files",
    "Dg.c73_files_by_id",
    "Dg.c73_get_document_partial",
    "Dg.c73_no_document",
    "Dg.c73_ids",
    "Dg.c73_ids_reject",
    "Dg.c73_index",
    "Dg.c73_fails_suffix",
    "Dg.c73_fails_directory",
    "Dg.c73_fails_global"
   ],
   "note": "Missing from the full claim: layers of edges at the roots and layers that share token IDs with the document (as C24); layers that use the token attribute of the document; attributes of nodes shared by several layers may be those of a later layer."
  },
  {
   "property": "C74",
   "status": "partial",
   "theorems": [
    "Dg.c74_merges_partial",
    "Dg.c74_no_files",
    "Dg.c74_missing_file",
    "Dg.c74_output",
    "Dg.c74_no_output",
    "Dg.c74_graph_error",
    "Dg.c74_merge_error",
    "Dg.c74_fails_format",
    "Dg.c74_fails_pickle",
    "Dg.c74_fails_anaphoricity",
    "Dg.c74_fails_anaphoricity_alone"
   ],
   "note": "Missing from the full claim: layers of edges at the roots and layers that share token IDs (as C24); anaphoricity files always fail (c74_fails_anaphoricity)."
  },
  {
   "property": "C75",
   "status": "partial",
   "theorems": [
    "Dg.DG.c75_anaphoricity",
    "Dg.DG.c75_conano",
    "Dg.DG.c75_tiger_partial",
    "Dg.DG.c75_rst",
    "Dg.DG.c75_all_layers_partial",
    "Dg.DG.c75_fails_tiger_namespace",
    "Dg.DG.c75_fails_untokenized"
   ],
   "note": "Missing from the full claim: the TigerXML reader writes the token strings to `tiger:token` whatever the namespace is (c75_fails_tiger_namespace), so c75_tiger_partial is about the default namespace; c75_all_layers_partial needs the conditions on IDs. MMAX2 is part of C77."
  },
  {
   "property": "C76",
   "status": "partial",
   "theorems": [
    "Dg.c76_order_partial",
    "Dg.c76_next_partial",
    "Dg.c76_iterator_partial",
    "Dg.c76_name",
    "Dg.c76_len_partial",
    "Dg.c76_len_disturbs_nothing",
    "Dg.c76_loop_partial",
    "Dg.c76_reset_partial",
    "Dg.c76_second_loop_partial",
    "Dg.c76_element_partial",
    "Dg.c76_exportxml_order_partial",
    "Dg.c76_urml_order_partial",
    "Dg.c76_exportxml",
    "Dg.c76_exportxml_next_partial",
    "Dg.c76_urml_next_partial",
    "Dg.c76_fails_len",
    "Dg.c76_fails_list",
    "Dg.c76_fails_broken"
   ],
   "note": "Missing from the full claim: documents whose conversion raises StopIteration (which would end a loop silently; the readers handle their own StopIteration, c76_exportxml shows that documents as in C63 can be read), the fixed length of the Tueba-D/Z file (c76_fails_len), documents inside of documents. Files which are not well-formed are not modelled."
  },
  {
   "property": "C77",
   "status": "partial",
   "theorems": [
    "Dg.DG.c77_mmax",
    "Dg.DG.c77_application_partial",
    "Dg.DG.c77_fails_shared_id"
   ],
   "note": "Missing from the full claim: as C24 and C75 (layers of edges at the roots; IDs shared between files, c77_fails_shared_id); anaphoricity files always fail (c74_fails_anaphoricity). The list of EDUs in the metadata of RST documents is not modelled."
  },
  {
   "property": "C78",
   "status": "partial",
   "theorems": [
    "Dg.DG.c78_markables_partial",
    "Dg.DG.c78_markables_count",
    "Dg.DG.c78_markables_key",
    "Dg.DG.c78_phrases_partial",
    "Dg.DG.c78_odd_node",
    "Dg.DG.c78_tiger_markables_partial",
    "Dg.DG.c78_tiger_phrases_partial",
    "Dg.DG.c78_tiger_key",
    "Dg.DG.c78_fails_duplicates",
    "Dg.DG.c78_fails_forward_reference",
    "Dg.DG.c78_fails_other_namespace"
   ],
   "note": "Missing from the full claim: graphs with phrases without category, forward references and sentences whose root is a word, and duplicates in the list (c78_markables_key, c78_tiger_key, c78_fails_duplicates, c78_fails_forward_reference, c78_fails_other_namespace: the documented claims are false there)."
  },
  {
   "property": "C79",
   "status": "partial",
   "theorems": [
    "Dg.c79_leaf",
    "Dg.c79_tree_partial",
    "Dg.c79_off",
    "Dg.c79_fails_long_word",
    "Dg.c79_fails_hyphen",
    "Dg.c79_fails_negative"
   ],
   "note": "Partial: words that contain a hyphen or are longer than the width become two words (c79_fails_hyphen, c79_fails_long_word), and a negative width raises ValueError (c79_fails_negative). textwrap (dedent, expandtabs, munging, chunk packing) is modelled from Python's library; the regular expression of TextWrapper._split is a parameter with a specification (Chunker)."
  },
  {
   "property": "C80",
   "status": "partial",
   "theorems": [
    "Dg.DG.c80_text",
    "Dg.DG.c80_no_string",
    "Dg.DG.c80_no_span",
    "Dg.DG.c80_renamed",
    "Dg.DG.c80_kept",
    "Dg.DG.c80_layers_partial",
    "Dg.DG.c80_merged_text_partial",
    "Dg.DG.c80_markable_partial",
    "Dg.DG.c80_ex_b1",
    "Dg.DG.c80_fails_shared_ids"
   ],
   "note": "Partial: layers and projects as C73 and C62; IDs that several layers (or the document) use stand for the token of the first one (c80_fails_shared_ids). convert_spanstring is covered by C28, renaming and merging by C23, C24 and C73."
  },
  {
   "property": "C81",
   "status": "partial",
   "theorems": [
    "Dg.FsDir.c81_found",
    "Dg.FsDir.c81_once",
    "Dg.FsDir.c81_order",
    "Dg.FsDir.c81_all",
    "Dg.FsDir.c81_no_directory",
    "Dg.FsDir.c81_list",
    "Dg.FsDir.c81_fails_unicode",
    "Dg.FsDir.c81_layers",
    "Dg.FsDir.c81_corpus",
    "Dg.FsDir.c81_document_files_partial",
    "Dg.FsDir.c81_root",
    "Dg.FsDir.c81_example_names"
   ],
   "note": "Partial: c81_fails_unicode (a directory given as unicode object is iterated over by its characters), and documents as C73. os.walk and os.path.join are modelled from Python's library; the file system is a parameter (what is listed in each directory, in any order); sets of characters in brackets in patterns are not modelled."
  },
  {
   "property": "C82",
   "status": "partial",
   "theorems": [
    "Dg.c82_project",
    "Dg.c82_document_partial",
    "Dg.c82_no_common_paths",
    "Dg.c82_missing_path",
    "Dg.c82_no_words",
    "Dg.c82_same_extension"
   ],
   "note": "Proved for the document (content of the graph) under the conditions of C62; c82_document_partial is partial as C62's content theorem is (IDs used once, no cyclic or sentence antecedents), and because the parsed files are modelled, not their bytes. The paths and levels of the project (c82_project), shared files and the failures are proved for all file systems."
  }
 ]
}