{"id": "C01", "title": "Every node and edge always carries a set of layer names", "statement": "After constructing a DiscourseDocumentGraph and performing any sequence of add_node, add_nodes_from, add_edge, add_edges_from, add_layer, remove_node and add_precedence_relations calls -- including calls that raise half way -- every node and every edge of the graph has a 'layers' attribute and it is a set of strings; layers of edges, and of nodes added through add_node, are never empty.", "quantifier": "all namespaces, all finite histories of API calls with arbitrary arguments, including failing calls", "why_tests_cant": "the invariant must survive every interleaving of calls and every argument shape; tests only exercise a few histories", "anchors": ["src/discoursegraphs/discoursegraph.py:DiscourseDocumentGraph.add_node", "src/discoursegraphs/discoursegraph.py:add_nodes_from", "src/discoursegraphs/discoursegraph.py:add_edge", "src/discoursegraphs/discoursegraph.py:add_edges_from", "src/discoursegraphs/discoursegraph.py:add_layer"]}
{"id": "C02", "title": "Growing a graph never loses layers, nodes or edges", "statement": "No add_* / add_layer call ever removes a node, removes an edge, or removes a layer name from a node or an edge that was in the graph before the call, no matter whether the call succeeds or raises.", "quantifier": "all graphs, all finite histories of growing calls", "why_tests_cant": "monotonicity over unbounded histories cannot be sampled", "anchors": ["src/discoursegraphs/discoursegraph.py:DiscourseDocumentGraph.add_node", "src/discoursegraphs/discoursegraph.py:add_nodes_from", "src/discoursegraphs/discoursegraph.py:add_edge", "src/discoursegraphs/discoursegraph.py:add_edges_from", "src/discoursegraphs/discoursegraph.py:add_layer"]}
{"id": "C03", "title": "add_node merges attributes: last write wins, layers are united, everything else is untouched", "statement": "add_node(n, layers, attr_dict, **attr) on a valid layer set makes n a node whose attribute k is the keyword value if given, else the attr_dict value if given, else the old value if n existed; its layers are the union of the old and new layer sets; all other nodes and all edges are unchanged. An invalid layers argument raises and changes nothing.", "quantifier": "all graphs, nodes, layer arguments and attribute dictionaries", "why_tests_cant": "frame conditions and precedence must hold for every key and every other node", "anchors": ["src/discoursegraphs/discoursegraph.py:DiscourseDocumentGraph.add_node"]}
{"id": "C04", "title": "add_edge without a key always creates a new parallel edge; with a key it updates exactly that edge", "statement": "add_edge(u, v) without key adds exactly one edge u->v under a key that was not in use, leaves all existing edges and existing nodes as they were, and creates missing endpoints in the graph's own layer. With a key of an existing edge it overwrites the given attributes, unites layers and touches nothing else.", "quantifier": "all graphs, node pairs, keys, attribute dictionaries", "why_tests_cant": "freshness of the generated key must hold for any set of existing (int or str) keys", "anchors": ["src/discoursegraphs/discoursegraph.py:DiscourseDocumentGraph.add_edge"]}
{"id": "C05", "title": "A node's layers are the union of everything ever assigned, in any order", "statement": "After any sequence of add_node calls for a node, its layer set equals the union of all layer sets passed (the graph's namespace where none was passed), independent of call order, repetition and of calls for other nodes.", "quantifier": "all sequences of add_node calls and all their permutations", "why_tests_cant": "order-independence over all permutations", "anchors": ["src/discoursegraphs/discoursegraph.py:DiscourseDocumentGraph.add_node"]}
{"id": "C06", "title": "add_edges_from adds one edge per keyless tuple with the tuple's attributes taking precedence", "statement": "add_edges_from over any list of (u, v, attrs) tuples adds exactly one new edge per tuple, the tuple's attributes override attr_dict/keyword attributes, its layers are the union of both, and no previously existing edge is modified; a (u, v, key, attrs) tuple for an existing key updates that edge in place and unites layers; a tuple of any other length raises after the preceding tuples were added.", "quantifier": "all graphs, edge lists, shared attribute dictionaries", "why_tests_cant": "lists of unbounded length with repeated endpoints, fresh-key search", "anchors": ["src/discoursegraphs/discoursegraph.py:DiscourseDocumentGraph.add_edges_from"]}
{"id": "C07", "title": "add_layer touches only the addressed element", "statement": "add_layer(node, l) adds l to that node's layers and changes nothing else; add_layer((u, v), l) adds l to every parallel edge u->v and changes nothing else.", "quantifier": "all graphs, elements and layer names, all ways the graph was built", "why_tests_cant": "depends on whether layer sets are shared between elements by earlier calls", "anchors": ["src/discoursegraphs/discoursegraph.py:DiscourseDocumentGraph.add_layer"]}
{"id": "C08", "title": "select_nodes_by_layer returns exactly the nodes of the requested layers", "statement": "select_nodes_by_layer yields every node belonging to the given layer (or any of the given collection of layers) exactly once in graph order and no other node; with layer=None it yields every node.", "quantifier": "all graphs, all layer arguments", "why_tests_cant": "soundness and completeness for all graphs", "anchors": ["src/discoursegraphs/discoursegraph.py:select_nodes_by_layer"]}
{"id": "C09", "title": "select_nodes_by_attribute returns exactly the nodes with the requested attribute and value", "statement": "select_nodes_by_attribute yields exactly once every node that possesses the attribute (any node if attribute is None) and whose attribute value equals the given string / is among the given collection (any value if None).", "quantifier": "all graphs, attributes, values", "why_tests_cant": "soundness and completeness for all graphs", "anchors": ["src/discoursegraphs/discoursegraph.py:select_nodes_by_attribute"]}
{"id": "C10", "title": "Neighbour selection is exact", "statement": "select_neighbors_by_layer and select_neighbors_by_edge_attribute yield exactly once each out-neighbour that satisfies the filter (layer membership; some parallel edge carrying the attribute and some carrying the value).", "quantifier": "all graphs, sources, filters", "why_tests_cant": "soundness and completeness for all graphs incl. parallel edges", "anchors": ["src/discoursegraphs/discoursegraph.py:select_neighbors_by_layer", "src/discoursegraphs/discoursegraph.py:select_neighbors_by_edge_attribute"]}
{"id": "C11", "title": "Edge selection is exact", "statement": "select_edges_by(layer, edge_type) and select_edges_by_attribute(attribute, value) yield exactly the edges matching the filter, once per edge (once per matching listed value for a collection), for filter strings that need no escaping inside a Python literal.", "quantifier": "all graphs, layers, edge types, attributes, values", "why_tests_cant": "soundness and completeness for all graphs; filter strings are spliced into eval'ed source", "anchors": ["src/discoursegraphs/discoursegraph.py:select_edges", "src/discoursegraphs/discoursegraph.py:select_edges_by", "src/discoursegraphs/discoursegraph.py:select_edges_by_attribute"]}
{"id": "C12", "title": "Annotation layer inventory is exact", "statement": "get_annotation_layers returns exactly the layer names used by some node or edge; get_top_level_layers exactly the parts before the first ':' of those.", "quantifier": "all graphs", "why_tests_cant": "must hold for all graphs", "anchors": ["src/discoursegraphs/discoursegraph.py:get_annotation_layers", "src/discoursegraphs/discoursegraph.py:get_node_annotation_layers", "src/discoursegraphs/discoursegraph.py:get_edge_annotation_layers", "src/discoursegraphs/discoursegraph.py:get_top_level_layers"]}
{"id": "C13", "title": "Token offsets index the document text", "statement": "After add_offsets, for every token of the document get_text(docgraph)[onset:offset] is exactly the token string, offsets are increasing, neighbouring tokens are separated by exactly one character, and nothing but the onset/offset attributes changed.", "quantifier": "all documents (token counts, token strings incl. empty ones)", "why_tests_cant": "arithmetic over unbounded token lists", "anchors": ["src/discoursegraphs/discoursegraph.py:DiscourseDocumentGraph.add_offsets", "src/discoursegraphs/discoursegraph.py:get_text", "src/discoursegraphs/discoursegraph.py:DiscourseDocumentGraph._get_all_offsets"]}
{"id": "C14", "title": "get_offsets computes missing offsets on demand", "statement": "get_offsets(token) returns the token's offsets, computing and storing them for the whole document if they are missing; a second call returns the same result without changing the graph. Non-token nodes raise an AssertionError. get_offsets() without a token yields all tokens in text order with their offsets.", "quantifier": "all documents and node IDs, including unknown ones", "why_tests_cant": "error path recursion cannot be exhausted by tests", "anchors": ["src/discoursegraphs/discoursegraph.py:DiscourseDocumentGraph.get_offsets"]}
{"id": "C15", "title": "is_continuous decides adjacency of a node's tokens", "statement": "is_continuous(node) is True iff the tokens dominated by the node form a gap-free stretch of the document's token list; get_span_offsets(node) is the onset of the textually first and the offset of the textually last token of the node.", "quantifier": "all documents and non-empty token sets", "why_tests_cant": "all subsets of unbounded documents", "anchors": ["src/discoursegraphs/discoursegraph.py:is_continuous", "src/discoursegraphs/discoursegraph.py:get_span_offsets"]}
{"id": "C16", "title": "get_span returns exactly the dominated tokens, sorted", "statement": "On a graph whose non-pointing edges (self-loops ignored) are acyclic, get_span(node) terminates and its elements are exactly the token nodes reachable from node via non-pointing edges, sorted by natural sort key.", "quantifier": "all acyclic graphs, all nodes", "why_tests_cant": "reachability over all graphs; termination", "anchors": ["src/discoursegraphs/discoursegraph.py:get_span"]}
{"id": "C17", "title": "get_text and tokens2text concatenate the tokens in order", "statement": "get_text(docgraph) is the token strings in document order joined by single blanks; splitting it at blanks gives back the token strings if no token contains a blank and tokens are non-empty.", "quantifier": "all documents", "why_tests_cant": "all token sequences", "anchors": ["src/discoursegraphs/discoursegraph.py:get_text", "src/discoursegraphs/discoursegraph.py:tokens2text", "src/discoursegraphs/discoursegraph.py:DiscourseDocumentGraph.get_tokens"]}
{"id": "C18", "title": "Pointing chains follow pointing relations", "statement": "Every chain returned by get_pointing_chains has at least two elements and each consecutive pair is connected by a pointing relation of the requested layer.", "quantifier": "all graphs (where the call returns), layers", "why_tests_cant": "all graphs", "anchors": ["src/discoursegraphs/discoursegraph.py:get_pointing_chains", "src/discoursegraphs/discoursegraph.py:__walk_chain"]}
{"id": "C19", "title": "Pointing chains are complete and maximal on acyclic relations", "statement": "If the pointing relations are acyclic, get_pointing_chains terminates; every chain starts at a node nothing points to and ends at a node that points nowhere; every such maximal path is returned exactly once; every pointing relation is part of some chain.", "quantifier": "all acyclic relation sets", "why_tests_cant": "all DAGs; termination", "anchors": ["src/discoursegraphs/discoursegraph.py:get_pointing_chains", "src/discoursegraphs/discoursegraph.py:__walk_chain"]}
{"id": "C20", "title": "natural_sort_key orders numbered IDs numerically", "statement": "sorted(key=natural_sort_key) is a stable total preorder on IDs; for a common prefix not ending in a digit, prefix+str(a) sorts before prefix+str(b) iff a < b.", "quantifier": "all strings and naturals", "why_tests_cant": "all strings", "anchors": ["src/discoursegraphs/util.py:natural_sort_key"]}
{"id": "C21", "title": "create_token_mapping maps tokens position by position or refuses", "statement": "If two graphs have the same token strings, create_token_mapping maps the i-th token ID of the first to the i-th of the second; any tokenization mismatch raises.", "quantifier": "all pairs of documents", "why_tests_cant": "all token lists, lengths may differ", "anchors": ["src/discoursegraphs/discoursegraph.py:create_token_mapping"]}
{"id": "C22", "title": "relabel_nodes renames and changes nothing else", "statement": "For an injective mapping to labels not yet used, relabel_nodes yields a graph whose nodes and edges (keys, attributes, layers) are those of the input with the endpoints renamed; edges and attributes are neither lost, duplicated nor altered.", "quantifier": "all graphs and mappings, all processing orders of the mapping", "why_tests_cant": "isomorphism over all graphs", "anchors": ["src/discoursegraphs/relabel.py:relabel_nodes", "src/discoursegraphs/relabel.py:_relabel_inplace"]}
{"id": "C23", "title": "merge_graphs keeps everything of the receiving graph", "statement": "After g.merge_graphs(other), every node, edge, layer, token and sentence of g is still there and g's text is unchanged.", "quantifier": "all pairs of graphs with the same tokenization", "why_tests_cant": "all graph pairs", "anchors": ["src/discoursegraphs/discoursegraph.py:DiscourseDocumentGraph.merge_graphs"]}
{"id": "C24", "title": "merge_graphs imports everything of the merged graph", "statement": "After g.merge_graphs(other), every non-root node and every edge of other is present in g (token IDs renamed to g's), with all its attributes and layers, and edges leaving other's root now leave g's root; other's root is gone.", "quantifier": "all pairs of graphs with the same tokenization", "why_tests_cant": "all graph pairs", "anchors": ["src/discoursegraphs/discoursegraph.py:DiscourseDocumentGraph.merge_graphs", "src/discoursegraphs/discoursegraph.py:DiscourseDocumentGraph.merge_rootnodes", "src/discoursegraphs/discoursegraph.py:rename_tokens"]}
{"id": "C25", "title": "add_precedence_relations adds exactly the token chain", "statement": "add_precedence_relations adds exactly one precedence edge root->first token and one from each token to its successor, and changes nothing else.", "quantifier": "all graphs with at least two tokens", "why_tests_cant": "unbounded token lists", "anchors": ["src/discoursegraphs/discoursegraph.py:DiscourseDocumentGraph.add_precedence_relations"]}
{"id": "C26", "title": "get_kwic returns the keyword's context window", "statement": "For a valid index, get_kwic returns (before, keyword, after) with before+[keyword]+after a contiguous piece of the token list around index, with at most context_window tokens on each side and fewer only at the text boundary.", "quantifier": "all token lists, indices, window sizes", "why_tests_cant": "boundary arithmetic", "anchors": ["src/discoursegraphs/discoursegraph.py:get_kwic"]}
{"id": "C27", "title": "TokenMapper is a bijection between token IDs and positions", "statement": "TokenMapper.id2index and index2id are inverse to each other on the document's tokens; get_segment_token_offsets returns the smallest and largest position among the given tokens.", "quantifier": "all documents with distinct token IDs", "why_tests_cant": "all token lists", "anchors": ["src/discoursegraphs/util.py:TokenMapper", "src/discoursegraphs/util.py:get_segment_token_offsets"]}
{"id": "C28", "title": "Span strings expand to the enumerated token IDs", "statement": "convert_spanstring expands comma separated IDs and 'p_a..p_b' ranges into exactly the listed IDs in order (both ends of a range included), and rejects mixed prefixes.", "quantifier": "all lists of spans", "why_tests_cant": "all span strings", "anchors": ["src/discoursegraphs/readwrite/generic.py:convert_spanstring"]}
{"id": "C29", "title": "dot quoting is reversible", "statement": "unquote_from_pydot(quote_for_pydot(s)) == s for every string without line breaks, and the quoted form contains no unescaped inner quote.", "quantifier": "all strings", "why_tests_cant": "all strings", "anchors": ["src/discoursegraphs/readwrite/dot.py:quote_for_pydot", "src/discoursegraphs/readwrite/dot.py:unquote_from_pydot"]}
{"id": "C30", "title": "FREQT export is a well-bracketed, uniquely decodable tree", "statement": "The FREQT string of a tree has balanced brackets regardless of brackets in token strings, POS tags and labels, and distinct labelled trees yield distinct strings (after escaping).", "quantifier": "all ordered labelled trees", "why_tests_cant": "all trees and label strings", "anchors": ["src/discoursegraphs/readwrite/freqt.py:node2freqt", "src/discoursegraphs/readwrite/freqt.py:sentence2freqt"]}
{"id": "C31", "title": "Breadth-first export visits each dominated node once", "statement": "sorted_bfs_edges/successors yield, for every node reachable from the source over dominance edges, exactly one incoming edge (none for the source), children ordered by first covered token.", "quantifier": "all graphs", "why_tests_cant": "all graphs, termination", "anchors": ["src/discoursegraphs/readwrite/tree.py:sorted_bfs_edges", "src/discoursegraphs/readwrite/tree.py:sorted_bfs_successors", "src/discoursegraphs/readwrite/tree.py:horizontal_positions"]}
{"id": "C32", "title": "RS3 writer emits unique IDs, valid parents and segments in text order", "statement": "write_rs3 gives each segment/group a distinct ID, each parent attribute refers to an emitted element, and the segments' texts in file order are the tree's EDUs in text order.", "quantifier": "all well-formed RST trees", "why_tests_cant": "all trees", "anchors": ["src/discoursegraphs/readwrite/rst/rs3/rs3filewriter.py:RS3FileWriter"]}
{"id": "C33", "title": "RS3 write/read round-trip", "statement": "Reading back with read_rs3tree what write_rs3 wrote yields the same RST tree.", "quantifier": "all well-formed RST trees with distinct, non-empty, whitespace-normalised EDU texts, no relation called span and no relation name used both with and without a satellite; any contents of the class-level relation defaults without span", "why_tests_cant": "all trees and all histories of earlier writes", "anchors": ["src/discoursegraphs/readwrite/rst/rs3/rs3filewriter.py:RS3FileWriter", "src/discoursegraphs/readwrite/rst/rs3/rs3tree.py:RSTTree"]}
{"id": "C34", "title": "DIS write/read round-trip", "statement": "Converting an RST tree to the .dis structure and reading it back with dis2tree yields the same RST tree.", "quantifier": "all well-formed RST trees", "why_tests_cant": "all trees", "anchors": ["src/discoursegraphs/readwrite/rst/dis/disfilewriter.py:convert", "src/discoursegraphs/readwrite/rst/dis/distree.py:dis2tree"]}
{"id": "C35", "title": "Parser output converters preserve EDUs, relations and nuclearity", "statement": "HILDA, StageDP and DPLP parse trees are converted to trees with the same EDU sequence, one relation node per input relation carrying the relation name, and children labelled with the nuclearity given in the input label.", "quantifier": "all binary parse trees", "why_tests_cant": "all trees", "anchors": ["src/discoursegraphs/readwrite/rst/hilda.py:hildatree2dgparentedtree", "src/discoursegraphs/readwrite/rst/stagedp.py:stagedptree2dgparentedtree", "src/discoursegraphs/readwrite/rst/dplp.py:dplptree2dgparentedtree"]}
{"id": "C36", "title": "Heilman/Sagae trees are converted without loss", "statement": "HS2015 parses are converted into trees with the same EDU sequence; nucleus-satellite, multinuclear and multi-satellite constellations are all handled.", "quantifier": "all HS2015 parse trees", "why_tests_cant": "all trees", "anchors": ["src/discoursegraphs/readwrite/rst/heilman_sagae_2015.py:hs2015tree2dgparentedtree"]}
{"id": "C37", "title": "RST schemata are binarised without losing or reordering EDUs", "statement": "order_schema/convert_schema combine a nucleus and its satellites into a tree that contains every satellite subtree exactly once, whose EDUs are in text order, and in which every satellite hangs under a relation node bearing its relation name.", "quantifier": "all nuclei and satellite lists at distinct positions", "why_tests_cant": "all numbers of satellites and positions", "anchors": ["src/discoursegraphs/readwrite/rst/rs3/rs3tree.py:RSTTree.order_schema", "src/discoursegraphs/readwrite/rst/rs3/rs3tree.py:RSTTree.convert_schema"]}
{"id": "C38", "title": "brat stand-off offsets point at the markable text", "statement": "For each T-line of the brat export, the text file content between the two offsets is exactly the markable text, each markable has its own T number, and R-lines only refer to existing T numbers.", "quantifier": "all documents and pointing chains", "why_tests_cant": "all documents", "anchors": ["src/discoursegraphs/readwrite/brat.py:brat_output"]}
{"id": "C39", "title": "Bracket export is balanced and keeps the text", "statement": "gen_bracketed_output emits the tokens in order, opens one bracket per markable and closes as many as it opens; closing brackets carry the chain ID of a markable.", "quantifier": "all documents and markables", "why_tests_cant": "all documents", "anchors": ["src/discoursegraphs/readwrite/brackets.py:gen_bracketed_output"]}
{"id": "C40", "title": "CoNLL export writes one numbered row per token", "statement": "The CoNLL export contains for each sentence exactly its tokens in order, numbered from 1, with a coreference column that opens and closes each markable exactly once at its first/last token.", "quantifier": "all documents", "why_tests_cant": "all documents", "anchors": ["src/discoursegraphs/readwrite/conll.py:Conll2009File"]}
{"id": "C41", "title": "Exmaralda export and import", "statement": "The Exmaralda export has n+1 timeline points for n tokens, one [Ti, Ti+1) event per token in order, a tier per token attribute, per informative layer (events from the first to the last token of each node, with its label) and per coreference chain. Importing a document gives a token per timeline point in order of time, the token strings and annotations of one-token tiers as attributes, and root -> tier -> event -> token edges for span tiers; gen_token_range(Ti, Tj) is exactly Ti..Tj-1. Importing an exported document gives back the token strings, attributes and spans.", "quantifier": "all documents and all graphs with any annotation layers", "why_tests_cant": "all documents; category clashes and span shapes", "anchors": ["src/discoursegraphs/readwrite/exmaralda.py:ExmaraldaFile", "src/discoursegraphs/readwrite/exmaralda.py:ExmaraldaDocumentGraph.gen_token_range"]}
{"id": "C42", "title": "Anaphoricity files round-trip", "statement": "Reading an anaphoricity file gives one token node per whitespace separated token in order, annotated (with word, type and certainty) iff it contains the annotation pattern; gen_anaphoricity_str writes the tokens in order, annotated iff the token is annotated and is the requested word; writing what was read reproduces tokens and annotations.", "quantifier": "all texts; all graphs with anaphoricity annotations", "why_tests_cant": "all texts", "anchors": ["src/discoursegraphs/readwrite/anaphoricity.py:AnaphoraDocumentGraph", "src/discoursegraphs/readwrite/anaphoricity.py:gen_anaphoricity_str"]}
{"id": "C43", "title": "Conano reader keeps all tokens in document order; spans are what is between the tags", "statement": "For any nesting of units, connectives and modifiers, the Conano reader gives the words between the tags as tokens in document order, each attached to the innermost element containing it; with the (default) check a document is accepted iff these tokens are the whitespace separated words of the document's plain text. get_span of an element, get_conano_units and get_connective return exactly the tokens between the element's tags, in document order.", "quantifier": "all XML documents (element trees)", "why_tests_cant": "all nestings, all positions of white space relative to the tags", "anchors": ["src/discoursegraphs/readwrite/conano.py:ConanoDocumentGraph._add_element", "src/discoursegraphs/readwrite/conano.py:ConanoDocumentGraph.is_valid", "src/discoursegraphs/readwrite/conano.py:get_conano_units", "src/discoursegraphs/readwrite/conano.py:get_connective"]}
{"id": "C44", "title": "Graph statistics count each element once per layer and attribute", "statement": "node_statistics/edge_statistics count for each layer (attribute) exactly the nodes (edges) that have it.", "quantifier": "all graphs", "why_tests_cant": "all graphs", "anchors": ["src/discoursegraphs/statistics.py:node_statistics", "src/discoursegraphs/statistics.py:edge_statistics"]}
{"id": "C45", "title": "xpointer-safe IDs, prefixing and single-pass replacement", "statement": "ensure_xpointer_compatibility never returns a ':' and changes nothing else; add_prefix prefixes each key and keeps values; create_multiple_replace_func substitutes each occurrence once in a single left-to-right pass.", "quantifier": "all strings and dictionaries", "why_tests_cant": "all strings", "anchors": ["src/discoursegraphs/util.py:ensure_xpointer_compatibility", "src/discoursegraphs/util.py:add_prefix", "src/discoursegraphs/util.py:create_multiple_replace_func"]}
{"id": "C46", "title": "Removing metadata and casting layers for export only changes what it says", "statement": "remove_root_metadata removes only 'metadata' from root nodes; layerset2list turns each layers set into a list with the same elements and changes nothing else.", "quantifier": "all graphs", "why_tests_cant": "all graphs", "anchors": ["src/discoursegraphs/readwrite/generic.py:remove_root_metadata", "src/discoursegraphs/readwrite/generic.py:layerset2list"]}
{"id": "C47", "title": "Graphviz export keeps every node, edge and label", "statement": "For every document graph, preprocess_for_pydot returns a graph with the same name, exactly one node per node (named by its quoted ID), exactly one edge per edge (parallel edges included) between the quoted IDs of its ends, each with its quoted label if it has one and without any other attribute.", "quantifier": "all document graphs with IDs and labels of any text", "why_tests_cant": "IDs and labels are arbitrary text; collisions between quoted names only show for particular graphs", "anchors": ["src/discoursegraphs/readwrite/dot.py:preprocess_for_pydot"]}
{"id": "C48", "title": "Geoff export writes one line per node and one per edge", "statement": "convert_to_geoff writes exactly one line per node followed by exactly one line per edge with the right source and target; the written properties are those of the graph with layers as lists, and a node without a label is labelled by its (string) ID.", "quantifier": "all document graphs, set iteration orders and property encoders without line breaks", "why_tests_cant": "arbitrary graphs and set orders", "anchors": ["src/discoursegraphs/readwrite/geoff.py:graph2geoff", "src/discoursegraphs/readwrite/neo4j.py:convert_to_geoff"]}
{"id": "C49", "title": "GEXF/GraphML preparation leaves only scalar attributes and loses nothing else", "statement": "The graph that write_gexf and write_graphml hand to networkx has the same nodes and edges as the document graph, has only scalar attribute values, keeps scalar attributes unchanged and loses no attribute except the metadata of root nodes, provided the other attributes are scalars or lists.", "quantifier": "all document graphs with scalar or list attributes", "why_tests_cant": "arbitrary graphs and attribute combinations", "anchors": ["src/discoursegraphs/readwrite/gexf.py:write_gexf", "src/discoursegraphs/readwrite/graphml.py:write_graphml"]}
{"id": "C50", "title": "make_labels_explicit appends IDs and edge types exactly once", "statement": "After make_labels_explicit every node label ends in '_<node ID>' and every edge label is '<label>_<edge type>' (or the edge type if there was no label); nothing else changes.", "quantifier": "all document graphs", "why_tests_cant": "parallel edges only go wrong in particular graphs", "anchors": ["src/discoursegraphs/util.py:make_labels_explicit"]}
{"id": "C51", "title": "PTB bracket strings show the dominance tree and can be read back", "statement": "tree2bracket(g, root) is the Penn Treebank notation of the dominance tree below root: every node below root exactly once, below the node that dominates it, siblings in text order; the string is balanced and the labelled tree can be recovered from it, whatever the tokens, tags and labels are.", "quantifier": "all document graphs, roots, tokens and labels", "why_tests_cant": "arbitrary trees and label strings; unescaped brackets only show for particular tokens", "anchors": ["src/discoursegraphs/readwrite/tree.py:tree2bracket", "src/discoursegraphs/readwrite/tree.py:node2bracket"]}
{"id": "C52", "title": "Reading an RS3 file keeps every EDU exactly once", "statement": "If read_rs3tree returns a tree, its leaves are, up to order, the (whitespace-normalised) texts of the segments of the file: none is lost and none occurs twice.", "quantifier": "all RS3 files with distinct IDs in which every element is below a root and every element with a parent has a relname", "why_tests_cant": "files can nest groups, satellites and multinuclear relations arbitrarily deep, in any document order", "anchors": ["src/discoursegraphs/readwrite/rst/rs3/rs3tree.py:RSTTree", "src/discoursegraphs/readwrite/rst/rs3/rs3tree.py:get_rs3_data"]}
{"id": "C53", "title": "Reading a CoNLL file gives exactly its sentences, words, features and dependencies", "statement": "For every file in the CoNLL format of 2009 or 2010 (sentences separated by one empty line, words numbered with different numbers within a sentence, LF line ends) ConllDocumentGraph has exactly the sentences and words of the file in order, each word with all its columns, its token string (unless a feature is called 'token'), its number and the features its feature string gives it, and one dependency edge from the node of its head (the sentence for 0) with the relation of the file; there are no other nodes and edges. Files that are empty or have a line with the wrong number of columns or an unnumbered word are rejected. traverse_dependencies_up yields the attribute values of the heads of a word up to the root.", "quantifier": "all CoNLL files, namespaces and choices of head, relation and feature columns", "why_tests_cant": "files, column contents and feature strings are arbitrary text; number collisions, stray separators and cycles only show for particular files", "anchors": ["src/discoursegraphs/readwrite/conll.py:ConllDocumentGraph", "src/discoursegraphs/readwrite/conll.py:traverse_dependencies_up"]}
{"id": "C54", "title": "CoNLL export and import round trip", "statement": "Writing a document with write_conll and reading the file with ConllDocumentGraph gives a document with the same sentences in the same order, each with the same token strings in the same order.", "quantifier": "all documents whose sentences list their tokens, all choices of columns", "why_tests_cant": "sentence and token contents are arbitrary; separators inside tokens and empty sentences only show for particular documents", "anchors": ["src/discoursegraphs/readwrite/conll.py:Conll2009File", "src/discoursegraphs/readwrite/conll.py:ConllDocumentGraph"]}
{"id": "C55", "title": "Reading a TigerXML file gives exactly its sentences, terminals, nonterminals and edges", "statement": "For every TigerXML file with the required attributes and unique IDs, TigerDocumentGraph has exactly the terminals and nonterminals of the file as nodes (plus the document root and a virtual root where a sentence root is a terminal), each with all its XML attributes, its label and its layers; exactly one edge per <edge> (spans to terminals, dominates otherwise), one pointing edge per <secedge> with its own label, one dominance edge from the sentence root to each unconnected node, one from the document root to each sentence; the token list has the terminals in text order with their words, the sentence list one root per sentence; every node below a sentence root can be reached from the document root.", "quantifier": "all TigerXML files, any number and shape of sentences (crossing edges, secondary edges, forward references), any namespace", "why_tests_cant": "files, shapes and IDs are arbitrary; ID collisions, forward references and unconnected nodes only show for particular files", "anchors": ["src/discoursegraphs/readwrite/tiger.py:TigerDocumentGraph", "src/discoursegraphs/readwrite/tiger.py:TigerSentenceGraph"]}
{"id": "C56", "title": "Queries on TIGER graphs: unconnected nodes, terminals, subordinate clauses", "statement": "get_unconnected_nodes returns exactly the nodes without incoming and outgoing edges (nothing for a one-node graph); _get_terminals_and_nonterminals returns exactly the terminals and nonterminals of the sentence in natural order; get_subordinate_clauses returns exactly the nonterminals connected to a clause (category S) by an edge labelled MO, RC or SB.", "quantifier": "all graphs, all TigerXML files and namespaces", "why_tests_cant": "arbitrary graph shapes; secondary edges, isolated nodes and other namespaces only show for particular files", "anchors": ["src/discoursegraphs/readwrite/tiger.py:get_unconnected_nodes", "src/discoursegraphs/readwrite/tiger.py:_get_terminals_and_nonterminals", "src/discoursegraphs/readwrite/tiger.py:get_subordinate_clauses"]}
{"id": "C57", "title": "Reading an RS3 file into a document graph gives exactly its segments, groups, relations and tokens", "statement": "For every .rs3 file with unique IDs, existing parents and one root group, RSTGraph has exactly the segments and groups of the file as nodes (plus a default root if there is no root group, plus one node per whitespace-separated word of each segment if tokenized), each with its text, type, label and layers; exactly one edge from the parent of each element to it, with relation name and type, spanning or dominating according to the header; one spanning edge from each segment to each of its tokens; without precedence edges no node has two incoming edges; the token list has the words in text order; the EDU list has the segments in document order; an element with a satellite has the segment type nucleus.", "quantifier": "all RS3 files (any nesting, any document order), namespaces and reader options", "why_tests_cant": "files nest arbitrarily deep in any document order; forward references, several roots and the order of satellites only show for particular files", "anchors": ["src/discoursegraphs/readwrite/rst/rs3/rs3graph.py:RSTGraph", "src/discoursegraphs/readwrite/rst/rs3/common.py:extract_relationtypes"]}
{"id": "C58", "title": "RST relation queries report exactly the relations of the file", "statement": "In a document read from an .rs3 file, get_span of a segment or group returns exactly the tokens below it; get_rst_relation_root_nodes yields exactly the elements that dominate a satellite or a nucleus of a multinuclear relation; get_rst_relations describes for each of them its own tokens, its nucleus, and each satellite and each multinuclear nucleus exactly once, with relation name and tokens; get_rst_spans has one row per multinuclear nucleus and two per satellite, with the positions of the first and last token.", "quantifier": "all RS3 files (any nesting, any document order)", "why_tests_cant": "trees are arbitrarily deep; namespaces, precedence edges, empty segments and undeclared relations only show for particular files", "anchors": ["src/discoursegraphs/readwrite/rst/rs3/rs3graph.py:get_rst_relation_root_nodes", "src/discoursegraphs/readwrite/rst/rs3/rs3graph.py:get_rst_relations", "src/discoursegraphs/readwrite/rst/rs3/rs3graph.py:get_rst_spans"]}
{"id": "C59", "title": "Reading a .dis file into a document graph gives a tree whose nodes, texts, relations and tokens are those of the parts read", "statement": "For every .dis file that stands for a well-formed rhetorical structure without `_!` in its EDUs, RSTLispDocumentGraph either raises NotImplementedError, exactly if a part that is visited is a satellite made of a nucleus and a satellite, or gives a graph that has exactly one node for the root, for every visited part and for every word of a visited EDU, with the text, label, relation and node type of the part; exactly one edge from each part to each visited part of it; without precedence edges the graph is a tree below the root; the token list has the words of the visited EDUs in document order and get_tokens() returns them.  Expected but false: all EDUs and relations of the file appear (the first part of every relation below the top one is dropped; relations of EDUs are dropped), get_span works on EDU nodes.", "quantifier": "all rhetorical structures (any depth and width), namespaces and reader options", "why_tests_cant": "structures nest arbitrarily deep; dropped parts and satellites of satellites only show in deep files", "anchors": ["src/discoursegraphs/readwrite/rst/dis/disgraph.py:RSTLispDocumentGraph", "src/discoursegraphs/readwrite/rst/dis/common.py:get_node_id"]}
{"id": "C60", "title": "Reading a URML document gives exactly its segments, relations and tokens, below a root that dominates them", "statement": "For every URML document with unique IDs, URMLDocumentGraph has exactly the segments and relations of the document and the arguments of relations as nodes, plus one node per sign or (if tokenized) per word, each with its text, label, relation name and type and layers; exactly one edge from each segment to each of its tokens, from each paratactic relation to each nucleus, from each hypotactic relation to its nucleus and from the nucleus to the satellite, with name and type of the relation; the token list and EDU list are in document order; the root is the origin of a longest path and has no incoming edge.  If each element is argument of one relation at most and no relation contains itself, reading succeeds and every node except for top-level ones has exactly one incoming edge; if there is one top-level element, it is the root and everything can be reached from it.  Malformed relations, cycles and documents without anything to connect raise AssertionError, NetworkXUnfeasible and IndexError.  Expected but false: alternative analyses of the same segments can be read, several top-level elements are connected to the root, the span of a nucleus is its own text.", "quantifier": "all URML documents (any number and nesting of relations, also dangling and cyclic ones), namespaces and reader options", "why_tests_cant": "structures nest arbitrarily deep; cycles, alternatives and several top-level elements only show for particular documents", "anchors": ["src/discoursegraphs/readwrite/rst/urml.py:URMLDocumentGraph", "src/discoursegraphs/readwrite/rst/urml.py:extract_segment_types", "src/discoursegraphs/readwrite/rst/common.py:get_segment_label"]}
{"id": "C61", "title": "Reading a Penn Treebank file gives exactly the syntax trees of its sentences, without empty elements, and its words in text order", "statement": "For every file whose sentences are phrases, PTBDocumentGraph has exactly one node for the document and one for each phrase and word that is not an empty element, numbered from left to right; exactly one dominance edge to each of them, from the phrase, sentence or document it is part of, so that without precedence edges the graph is a tree; the token list has the words in text order, each with text (names of brackets replaced by brackets) and part of speech; the sentence list has the sentences read.  Expected but false: `ignore_traces=False` keeps empty elements, every phrase has its category and is in the syntax layer, limit=0 reads nothing, words outside of a part of speech can be read.", "quantifier": "all lists of syntax trees (any depth and width), namespaces and reader options", "why_tests_cant": "trees are arbitrarily deep; numbering gaps and nested empty elements only show for particular trees", "anchors": ["src/discoursegraphs/readwrite/ptb.py:PTBDocumentGraph"]}
{"id": "C62", "title": "Reading an MMAX2 project gives exactly its words, markables, antecedents and sentences, whatever the order of the levels", "statement": "For every MMAX2 project with unique IDs, at least one sentence and a word in each sentence, and every order in which the levels are looked at, MMAXDocumentGraph succeeds and has exactly one node for the root, each word, markable, antecedent (also missing ones) and sentence; the attributes of a markable in its level's file; exactly one edge from each markable to each token of its span that exists, and one to each antecedent; the words as token list in document order, and the sentences sorted by their first token, each with its list of tokens; words, sentences and the root are in exactly their layers, markables at least in theirs, and other layers are only those of levels named by antecedents of the same level or of levels that point at the markable.  If antecedents do not name levels, edges have exactly the layers of their level and so do markables not pointed at from other levels.  Without sentence level: KeyError; with a name that is not the file name: IOError; without file for a level: AssertionError.  Expected but false: markables have only the layers of their level, independent of the order of levels, projects without sentences can be read.", "quantifier": "all projects (any number of levels, markables, antecedents), all orders of levels, namespaces and reader options", "why_tests_cant": "the order of levels is the order of a set; layers are shared between markables through an aliased set, which only shows for particular combinations of antecedents and orders", "anchors": ["src/discoursegraphs/readwrite/mmax2.py:MMAXDocumentGraph", "src/discoursegraphs/readwrite/mmax2.py:spanstring2tokens", "src/discoursegraphs/discoursegraph.py:add_node"]}
{"id": "C63", "title": "Reading an ExportXML document gives exactly the syntax, discourse and coreference structure of its elements", "statement": "For every ExportXML text element whose descendants have known tags and the required attributes, ExportXMLDocumentGraph succeeds and the graph has exactly the nodes, edges, layers and attributes that its elements stand for: dominance edges from the text to sentences, from the parent (attribute parent, or closest enclosing node or sentence) to nodes and words; spanning edges from edu and topic to the words inside, from edu-range to the edus inside, from ne to its children; pointing relations for discRel, relation, splitRelation and secEdge.  Tokens are the words in document order (if no word is inside of a word).  With different IDs, all XML attributes of an element are attributes of its node, words have their form as label and token, edu/topic/sentence have the list of words inside, and each sentence, node and word is dominated by exactly one node, and reachable from the root if parents are enclosing elements.  The ignore options remove exactly the edges of the ignored elements.  A text with an unknown element cannot be read.  Expected but false: each relation is in the graph once (the children of a word are read twice), named entities do not span themselves, sentences keep their attributes.", "quantifier": "all texts (any depth and number of elements), namespaces and reader options", "why_tests_cant": "the number of times an element is read depends on its nesting; parents are looked up along arbitrarily deep chains of ancestors; tests use one or two corpus documents", "anchors": ["src/discoursegraphs/readwrite/exportxml.py:ExportXMLDocumentGraph"]}
{"id": "C64", "title": "Reading a DeCour transcript gives exactly its units, words and annotations, and the tokens of every unit", "statement": "For every hearing, DecourDocumentGraph succeeds (without precedence edges) if and only if there is an introduction with text, turns and utterances are numbered, and every utterance has text and three children with at least as many words as the utterance.  The graph then has exactly one node per introduction, turn, first act of a turn, utterance, conclusion and word, exactly one dominance edge to each unit from its turn or the root, exactly one spanning edge to each word from its unit; the i-th word of an utterance has the i-th normal form, lemma and part of speech; get_span of a turn returns the tokens of its act and its utterances, get_span of the root all tokens in order.  Expected but false: the tokens are the text of the document in order (only the first act of a turn is read, before all utterances), every node is part of the document (root of the base class).", "quantifier": "all documents (any number of turns, acts, utterances, words), names and namespaces", "why_tests_cant": "which documents are accepted depends on word counts of parallel annotation lists; lost acts and clashes of names only show for particular documents; there is no test of this reader in the repository", "anchors": ["src/discoursegraphs/readwrite/decour.py:DecourDocumentGraph"]}
{"id": "C65", "title": "LaTeX export of an RST tree is the source of exactly that tree, and nothing is lost", "statement": "For every RST structure of units, multinuclear relations, nucleus-satellite relations and bundles of satellites around a nucleus, rsttree2rstlatex succeeds and its result, apart from line breaks and tabs, is the rst.sty source of that structure: each unit once as a segment with normalised text, each relation with its name and its parts in text order.  Two structures in normal form with equal exports are equal.  A relation with a bare unit as a child is rejected.  Expected but false: a document of a single segment is a segment (the backslash is lost); a satellite to the left of the nucleus is drawn on the left (not if the first one is on the right); units whose text contains an rst.sty command are segments; braces in texts are escaped.", "quantifier": "all trees (any depth and number of children, satellites), indentation levels", "why_tests_cant": "the export rewrites strings (indentation of already indented text, recognition of subtrees by a pattern in the generated source), which goes wrong only for particular nestings and texts", "anchors": ["src/discoursegraphs/readwrite/rst/rstlatex.py:rsttree2rstlatex", "src/discoursegraphs/readwrite/rst/rstlatex.py:make_multisat"]}
{"id": "C66", "title": "PAULA export of a document graph consists of files that say exactly what the graph says", "statement": "For every reachable graph with tokens whose node IDs contain a colon, whose renaming is collision-free, whose edges are typed, whose exported attribute values are strings and whose layer names have no dots, PaulaDocument succeeds and gives files with distinct names: the text of the document, the tokens (each mark selects exactly the characters of its token), for each top-level layer the spans, the hierarchy, the pointing relations and the attributes of tokens, nodes and edges (each node, each pair of connected nodes, each attribute once, none invented), and the list of all files; the files of a layer refer to each other consistently.  Expected but false: node IDs without colon can be exported, attributes with other values than strings can be exported, the root is left out, parallel edges, sub-layers and layers whose name starts with that of another layer are kept apart, names keep what follows a dot.", "quantifier": "all document graphs (any number of nodes, edges, layers, attributes), all orders of relabelling, corpus names and options", "why_tests_cant": "the export goes through renaming of all nodes, selection by layer and type and grouping by source and target; what is lost depends on collisions of names, parallel edges and empty nodes that tests on one corpus document do not contain", "anchors": ["src/discoursegraphs/readwrite/paulaxml/paula.py:PaulaDocument", "src/discoursegraphs/readwrite/paulaxml/paula.py:get_onsets"]}
{"id": "C67", "title": "Salt elements: what is read is what the element says, and writing is inverse to reading", "statement": "An element of a SaltXMI file with only labels inside can be read iff it stands for an object of one of the eight known types, and the object has exactly its labels, name, ID, layers, ends, offsets, text and annotations; an object that was read can be written and read again and is then the same; an element in the usual form is written as it was; a label made from scratch has the hexadecimal form of its value.", "quantifier": "all XML elements (any attributes, labels, references), all strings", "why_tests_cant": "references, numbers and labels can have any form and number; the exact set of readable elements and the round trip concern all of them", "anchors": ["src/discoursegraphs/readwrite/salt/elements.py:SaltElement", "src/discoursegraphs/readwrite/salt/nodes.py:SaltNode", "src/discoursegraphs/readwrite/salt/edges.py:SaltEdge", "src/discoursegraphs/readwrite/salt/layers.py:SaltLayer", "src/discoursegraphs/readwrite/salt/labels.py:SaltLabel", "src/discoursegraphs/readwrite/salt/util.py:string2xmihex"]}
{"id": "C68", "title": "Salt documents and graphs contain every element of the file", "statement": "A SaltXMI file can be read iff its root has an ID and each element stands for an object; the document has one object for each element in the order of the file, so references are positions; the graph of the file has the nodes of the document under their numbers with their attributes and the relations of the document as its edges with their attributes.", "quantifier": "all SaltXMI files (any number of nodes, edges and layers, in any order)", "why_tests_cant": "relations between the same nodes, references to missing nodes and element types occur in any combination", "anchors": ["src/discoursegraphs/readwrite/salt/saltxmi.py:SaltDocument", "src/discoursegraphs/readwrite/salt/saltxmi.py:SaltXMIGraph", "src/discoursegraphs/readwrite/salt/saltxmi.py:create_class_instance"]}
{"id": "C69", "title": "A Salt linguistic document connects tokens, spans, structures, sentences and text", "statement": "A document whose first node is a text, and whose relations connect nodes of the document, becomes a linguistic document in which each node has the offsets of its textual relation, the nodes it dominates and is dominated by, each span its tokens and each token its spans, in file order, whatever the order of the keys of the dicts; sentences go up to the next full stop and contain all tokens; tokens and sentences can be printed.", "quantifier": "all SaltXMI documents, all orders of dict keys", "why_tests_cant": "class lookups, grouping and positional references interact; whether anything is found at all depends on the classes of all objects read", "anchors": ["src/discoursegraphs/readwrite/salt/saltxmi.py:LinguisticDocument", "src/discoursegraphs/readwrite/salt/nodes.py:extract_sentences"]}
{"id": "C70", "title": "Text of .dis files: reading in any layout, brackets in EDUs, round trip with the writer", "statement": "The content of a .dis file, whatever its white space between the parts, is read as the rhetorical structure that it describes, with the brackets of the EDU texts as they are; unbalanced files are rejected; what write_dis writes is such a file and is read back as the same tree (white space in EDUs normalised); files of the CODRA parser are read with plain double quotes.", "quantifier": "all rhetorical structures and all layouts of their files", "why_tests_cant": "lexing, escaping and unescaping of brackets, pairing of marks and printing with line breaks interact for every text and every nesting", "anchors": ["src/discoursegraphs/readwrite/rst/dis/common.py:DisFile", "src/discoursegraphs/readwrite/rst/dis/common.py:convert_parens_in_rst_tree_str", "src/discoursegraphs/readwrite/rst/dis/distree.py:DisRSTTree", "src/discoursegraphs/readwrite/rst/dis/disfilewriter.py:DisFileWriter", "src/discoursegraphs/readwrite/rst/dis/codra.py:CodraRSTTree"]}
{"id": "C71", "title": "Numbering the nodes of a graph", "statement": "convert_node_labels_to_integers returns the same graph with its nodes called first_label, first_label+1, ... in the order asked for (as in the graph, sorted, by increasing or by decreasing degree, equal degrees by ID); node and edge attributes, layers and keys are kept, the old labels are stored in the attribute asked for, the original graph is unchanged; other orderings raise NetworkXError.", "quantifier": "all document graphs, first labels, orderings, label attributes and orders of renaming", "why_tests_cant": "renaming goes node by node through all edges and depends on which labels are already in use and on hash order", "anchors": ["src/discoursegraphs/relabel.py:convert_node_labels_to_integers", "src/discoursegraphs/relabel.py:_relabel_copy", "src/discoursegraphs/relabel.py:_relabel_inplace"]}
{"id": "C72", "title": "Text of parser output files (StageDP, Heilman/Sagae 2015, DPLP) is converted into the structure it describes", "statement": "Exactly the texts with balanced labelled brackets around one tree, in any layout, are read as bracketed trees, and as one tree only.  A StageDP file for a structure becomes the tree of that structure, and nothing else is converted; a file of the Heilman/Sagae parser becomes the tree of its first parse, files without tokens, parses or tree raise KeyError or IndexError; a DPLP file is split in front of its parse tree and becomes the tree of its structure.  Expected but false: underscores in the text of a StageDP file are kept; words that contain the name of the tree class can occur in DPLP files.", "quantifier": "all texts, all structures and layouts of their files", "why_tests_cant": "lexing, bracket matching, splitting and textual replacement have to be right for every nesting, every layout and every text", "anchors": ["src/discoursegraphs/readwrite/rst/stagedp.py:StageDPRSTTree", "src/discoursegraphs/readwrite/rst/heilman_sagae_2015.py:HS2015RSTTree", "src/discoursegraphs/readwrite/rst/dplp.py:DPLPRSTTree"]}
{"id": "C73", "title": "Documents of the Potsdam Commentary Corpus have all annotation layers of a text", "statement": "Any number of layers of the same text with different IDs can be merged into one document: the result has the tokens and text of the document, everything of the document and of each layer, nothing else (edges are counted), and all metadata.  The files of a document are exactly the files with its ID, in all layers, whatever the order of the dict of layers; get_document merges all of them, raises TypeError if there are none and passes on errors of the readers; document_ids are the IDs of all tokenized files, sorted; an index selects from them and counts from the end if it is negative.  Expected but false: parts of an ID find nothing; a corpus object lists its own documents.", "quantifier": "all corpora (any number of files and layers), all document graphs, all IDs, orders of the dict and chances of the renaming", "why_tests_cant": "merging one layer after the other renames tokens, removes roots and overwrites attributes; whether earlier layers survive all later ones depends on all IDs in all layers; selection by pattern depends on all file names and directories", "anchors": ["src/discoursegraphs/corpora.py:PCC", "src/discoursegraphs/discoursegraph.py:DiscourseDocumentGraph.merge_graphs", "src/discoursegraphs/util.py:find_files"]}
{"id": "C74", "title": "The command line application merges the given files and writes the result in the format asked for", "statement": "If the given files exist, can be read and are layers of the same text with different IDs, the application builds a document with the text and tokens of the first one, which has all layers completely (syntax, rhetorical structure, connectives, coreference) and nothing else but its root, with the metadata of all; this graph is given exactly once to the writer of the format, with the name of the output file; no-output writes nothing; a missing file leads to AssertionError before anything is read; errors of readers and merging are passed on; without files the document is empty.  Expected but false: anaphoricity files can be merged; unknown formats are rejected at once; pickle files go to standard output by default.", "quantifier": "all combinations of files, all document graphs, formats, output names and chances of the renaming", "why_tests_cant": "whatever is merged first determines names and tokens for everything that follows; each combination of kinds of files is a different history of merges", "anchors": ["src/discoursegraphs/merging.py:merging_cli", "src/discoursegraphs/discoursegraph.py:DiscourseDocumentGraph.merge_graphs"]}
{"id": "C75", "title": "What the readers return can be merged into one document", "statement": "For every well-formed file, what the readers for TigerXML, RST, Conano and anaphoricity files return is a layer as merging needs it: a well-formed graph in which every node has a layer, the tokens are different and have the words of the file as strings, the root is a node, no token, and no edge leads to it, and (if the namespaces differ) no node uses the token attribute of the other documents. So if the files of a text contain the same words and their IDs do not get into each other's way, reading all four files and merging the results works and the document has all four annotations completely.  Expected but false: this also holds for TigerXML files read with another namespace.", "quantifier": "all valid TigerXML, RST, Conano and anaphoricity files with the same words, all chances of the renaming", "why_tests_cant": "the readers are written independently of each other, each builds its graph with other calls; whether merge_graphs can cope with the result depends on every node and edge of every file", "anchors": ["src/discoursegraphs/discoursegraph.py:DiscourseDocumentGraph.merge_graphs", "src/discoursegraphs/readwrite/tiger.py:TigerDocumentGraph", "src/discoursegraphs/readwrite/rst/rs3/rs3graph.py:RSTGraph", "src/discoursegraphs/readwrite/conano.py:ConanoDocumentGraph", "src/discoursegraphs/readwrite/anaphoricity.py:AnaphoraDocumentGraph"]}
{"id": "C76", "title": "A corpus read document by document gives each document once, in order", "statement": "ExportXMLCorpus and URMLCorpus: over every history of iter, next, len and _reset_corpus_iterator (any number of iterators, interleaved, abandoned, ended by exceptions), the documents given from an opening of the file are the first ones of the file, in its order, each exactly once, whoever asks; next() and an iterator give the first document not given yet or StopIteration; len is the number of documents at any time and disturbs nothing; a loop gives what is left and, after a reset, everything; a second loop without reset gives nothing.  With debug an element stays as in the file until its iterator is asked for the next one.  Expected but false: len of a file with the name of the Tueba-D/Z corpus is 3258 whatever its content (c76_fails_len); list(corpus) with debug contains empty elements only (c76_fails_list); a document which cannot be read ends the loop, the next loop goes on behind it (c76_fails_broken).", "quantifier": "all files (trees without documents inside of documents), all readers, all histories of calls", "why_tests_cant": "the state of the opening is shared by all iterators of a corpus; which document comes next depends on the whole history of calls", "anchors": ["src/discoursegraphs/readwrite/exportxml.py:ExportXMLCorpus", "src/discoursegraphs/readwrite/rst/urml.py:URMLCorpus", "src/discoursegraphs/readwrite/generic.py:XMLElementCountTarget"]}
{"id": "C77", "title": "From the files to the output: the application merges the TigerXML, RST, Conano and MMAX files of a text", "statement": "If the files given to merging.py (any combination of a TigerXML, an RST and a Conano file and an MMAX project) are correct and contain the same words, and their IDs cannot be mixed up with each other or with IDs made by the readers, then each file can be read, and the application writes, in the format asked for, exactly one document, whose tokens are those of the first file, with the words as their strings, which has every node, edge, attribute and layer of all files, and nothing else but its root.  In particular what the MMAX2 reader returns for a correct project is a layer as merging needs it.  Expected but false: files that use the same IDs are told apart (or rejected).", "quantifier": "all combinations of correct files with the same words, all formats, output names and chances of the renaming", "why_tests_cant": "it depends on every node and edge of every file whether the graph made by one reader can be merged with those of the others", "anchors": ["src/discoursegraphs/merging.py:merging_cli", "src/discoursegraphs/readwrite/mmax2.py:MMAXDocumentGraph", "src/discoursegraphs/readwrite/tiger.py:TigerDocumentGraph", "src/discoursegraphs/readwrite/rst/rs3/rs3graph.py:RSTGraph", "src/discoursegraphs/readwrite/conano.py:ConanoDocumentGraph", "src/discoursegraphs/discoursegraph.py:DiscourseDocumentGraph.merge_graphs"]}
{"id": "C78", "title": "The phrases of a document: get_potential_markables and get_phrases", "statement": "For every document graph whose phrases have categories, get_potential_markables returns exactly the PPs of the syntax layer, the NPs without a PP as a parent, and the PPs above NPs of the layer (an NP once, a PP once for itself and once for each edge to an NP); one node of the layer without a category makes it raise KeyError. get_phrases yields each node of the layer with the category asked for once. For a document read from a TigerXML file these are the PPs and the NPs not below a PP of the file, and the phrases of the file with this category, if no sentence root is a word and phrases are declared before they are mentioned; a sentence whose root is a word makes get_potential_markables fail for the whole document.", "quantifier": "all well-formed document graphs, all categories and namespaces, all valid TigerXML files", "why_tests_cant": "which nodes are in the syntax layer depends on the order of all elements of the file; one sentence decides on the result for all", "anchors": ["src/discoursegraphs/readwrite/mmax2.py:get_potential_markables", "src/discoursegraphs/discoursegraph.py:DiscourseDocumentGraph.get_phrases"]}
{"id": "C79", "title": "Line wrapping of the EDUs of an RST tree changes nothing but white space", "statement": "word_wrap_tree with a positive width succeeds for every tree, keeps its labels and structure, loses, adds and moves no character of an EDU other than white space, gives no line longer than the width, and keeps the words of every EDU without hyphens and without words longer than the width; width 0 changes nothing.", "quantifier": "all trees, all texts (any white space, tabs, line breaks), all widths, all ways of splitting texts into chunks", "why_tests_cant": "the lines depend on the lengths of all words before them in the text", "anchors": ["src/discoursegraphs/readwrite/tree.py:word_wrap_tree"]}
{"id": "C80", "title": "The text of a span: spanstring2text, also after merging", "statement": "spanstring2text joins, with single blanks and in the order of the span, the strings of the tokens that the IDs of the span stand for; IDs of words that are not in the file are left out; a node without a string in the namespace of the document makes it raise KeyError. In the graph of an MMAX2 project the text of each markable and sentence is its words in the file. After any number of layers were merged into a document, the IDs of the tokens of each layer still stand for the words at their positions, although the tokens were renamed.", "quantifier": "all document graphs and span strings, all valid MMAX2 projects, all sequences of merged layers and all chances of renaming", "why_tests_cant": "the node found for an ID depends on all merges and renamings before", "anchors": ["src/discoursegraphs/readwrite/mmax2.py:spanstring2text", "src/discoursegraphs/readwrite/mmax2.py:spanstring2tokens", "src/discoursegraphs/discoursegraph.py:DiscourseDocumentGraph.merge_graphs"]}
{"id": "C81", "title": "Finding files: find_files and the files of the corpus", "statement": "find_files of a directory yields the absolute paths of exactly the files below it, at any depth, whose names fit the pattern, each of them once, whatever the order in which directories are listed; links to directories and directories that cannot be listed are left out, a missing directory yields nothing. Of a list of files it yields those whose whole path fits, in order. The layers of PCC consist of the files below their directories that fit their patterns, and the files of a document are those called ID.extension.", "quantifier": "all directory trees, listing orders, patterns of characters, * and ?, and root directories", "why_tests_cant": "trees can have any depth and breadth", "anchors": ["src/discoursegraphs/util.py:find_files", "src/discoursegraphs/corpora.py:PCC.__init__", "src/discoursegraphs/corpora.py:PCC.get_files_by_layer"]}
{"id": "C82", "title": "The files of an MMAX2 project", "statement": "MMAXDocumentGraph of a base file <project>/<ID>.mmax reads the words from the file named in the base file, in the folder for base data that common_paths.xml gives (the project itself if the element is empty, a path below it with or without a slash at the end, or an absolute path), and the markables of every level of common_paths.xml from the file <ID><extension> in the folder for markables; the graph has the content of the document in those files. Levels with the same extension share their file. Without common_paths.xml, without one of its five paths, or without a file of words, reading fails.", "quantifier": "all file systems, project directories with absolute paths, IDs, folders, levels with their extensions, documents as in C62", "why_tests_cant": "any file system and any layout of the project", "anchors": ["src/discoursegraphs/readwrite/mmax2.py:MMAXProject._parse_common_paths_file", "src/discoursegraphs/readwrite/mmax2.py:MMAXDocumentGraph.get_word_file", "src/discoursegraphs/readwrite/mmax2.py:MMAXDocumentGraph.get_file_id", "src/discoursegraphs/readwrite/mmax2.py:MMAXDocumentGraph.__init__"]}
