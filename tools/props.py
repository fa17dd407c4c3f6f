#!/usr/bin/env python3
"""Source of properties.jsonl: run `python3 tools/props.py` from /verif to regenerate it."""
import json, os
P = []
def p(id, title, statement, quantifier, why, anchors):
    P.append(dict(id=id, title=title, statement=statement, quantifier=quantifier,
                  why_tests_cant=why, anchors=anchors))
DG = "src/discoursegraphs/discoursegraph.py"
p("C01", "Every node and edge always carries a set of layer names",
  "After constructing a DiscourseDocumentGraph and performing any sequence of add_node, add_nodes_from, add_edge, add_edges_from, add_layer, remove_node and add_precedence_relations calls -- including calls that raise half way -- every node and every edge of the graph has a 'layers' attribute and it is a set of strings; layers of edges, and of nodes added through add_node, are never empty.",
  "all namespaces, all finite histories of API calls with arbitrary arguments, including failing calls",
  "the invariant must survive every interleaving of calls and every argument shape; tests only exercise a few histories",
  [DG + ":DiscourseDocumentGraph.add_node", DG + ":add_nodes_from", DG + ":add_edge", DG + ":add_edges_from", DG + ":add_layer"])
p("C02", "Growing a graph never loses layers, nodes or edges",
  "No add_* / add_layer call ever removes a node, removes an edge, or removes a layer name from a node or an edge that was in the graph before the call, no matter whether the call succeeds or raises.",
  "all graphs, all finite histories of growing calls",
  "monotonicity over unbounded histories cannot be sampled",
  [DG + ":DiscourseDocumentGraph.add_node", DG + ":add_nodes_from", DG + ":add_edge", DG + ":add_edges_from", DG + ":add_layer"])
p("C03", "add_node merges attributes: last write wins, layers are united, everything else is untouched",
  "add_node(n, layers, attr_dict, **attr) on a valid layer set makes n a node whose attribute k is the keyword value if given, else the attr_dict value if given, else the old value if n existed; its layers are the union of the old and new layer sets; all other nodes and all edges are unchanged. An invalid layers argument raises and changes nothing.",
  "all graphs, nodes, layer arguments and attribute dictionaries",
  "frame conditions and precedence must hold for every key and every other node",
  [DG + ":DiscourseDocumentGraph.add_node"])
p("C04", "add_edge without a key always creates a new parallel edge; with a key it updates exactly that edge",
  "add_edge(u, v) without key adds exactly one edge u->v under a key that was not in use, leaves all existing edges and existing nodes as they were, and creates missing endpoints in the graph's own layer. With a key of an existing edge it overwrites the given attributes, unites layers and touches nothing else.",
  "all graphs, node pairs, keys, attribute dictionaries",
  "freshness of the generated key must hold for any set of existing (int or str) keys",
  [DG + ":DiscourseDocumentGraph.add_edge"])
p("C05", "A node's layers are the union of everything ever assigned, in any order",
  "After any sequence of add_node calls for a node, its layer set equals the union of all layer sets passed (the graph's namespace where none was passed), independent of call order, repetition and of calls for other nodes.",
  "all sequences of add_node calls and all their permutations",
  "order-independence over all permutations",
  [DG + ":DiscourseDocumentGraph.add_node"])
p("C06", "add_edges_from adds one edge per keyless tuple with the tuple's attributes taking precedence",
  "add_edges_from over any list of (u, v, attrs) tuples adds exactly one new edge per tuple, the tuple's attributes override attr_dict/keyword attributes, its layers are the union of both, and no previously existing edge is modified; a (u, v, key, attrs) tuple for an existing key updates that edge in place and unites layers; a tuple of any other length raises after the preceding tuples were added.",
  "all graphs, edge lists, shared attribute dictionaries",
  "lists of unbounded length with repeated endpoints, fresh-key search",
  [DG + ":DiscourseDocumentGraph.add_edges_from"])
p("C07", "add_layer touches only the addressed element",
  "add_layer(node, l) adds l to that node's layers and changes nothing else; add_layer((u, v), l) adds l to every parallel edge u->v and changes nothing else.",
  "all graphs, elements and layer names, all ways the graph was built",
  "depends on whether layer sets are shared between elements by earlier calls",
  [DG + ":DiscourseDocumentGraph.add_layer"])
p("C08", "select_nodes_by_layer returns exactly the nodes of the requested layers",
  "select_nodes_by_layer yields every node belonging to the given layer (or any of the given collection of layers) exactly once in graph order and no other node; with layer=None it yields every node.",
  "all graphs, all layer arguments",
  "soundness and completeness for all graphs",
  [DG + ":select_nodes_by_layer"])
p("C09", "select_nodes_by_attribute returns exactly the nodes with the requested attribute and value",
  "select_nodes_by_attribute yields exactly once every node that possesses the attribute (any node if attribute is None) and whose attribute value equals the given string / is among the given collection (any value if None).",
  "all graphs, attributes, values",
  "soundness and completeness for all graphs",
  [DG + ":select_nodes_by_attribute"])
p("C10", "Neighbour selection is exact",
  "select_neighbors_by_layer and select_neighbors_by_edge_attribute yield exactly once each out-neighbour that satisfies the filter (layer membership; some parallel edge carrying the attribute and some carrying the value).",
  "all graphs, sources, filters",
  "soundness and completeness for all graphs incl. parallel edges",
  [DG + ":select_neighbors_by_layer", DG + ":select_neighbors_by_edge_attribute"])
p("C11", "Edge selection is exact",
  "select_edges_by(layer, edge_type) and select_edges_by_attribute(attribute, value) yield exactly the edges matching the filter, once per edge (once per matching listed value for a collection), for filter strings that need no escaping inside a Python literal.",
  "all graphs, layers, edge types, attributes, values",
  "soundness and completeness for all graphs; filter strings are spliced into eval'ed source",
  [DG + ":select_edges", DG + ":select_edges_by", DG + ":select_edges_by_attribute"])
p("C12", "Annotation layer inventory is exact",
  "get_annotation_layers returns exactly the layer names used by some node or edge; get_top_level_layers exactly the parts before the first ':' of those.",
  "all graphs", "must hold for all graphs",
  [DG + ":get_annotation_layers", DG + ":get_node_annotation_layers", DG + ":get_edge_annotation_layers", DG + ":get_top_level_layers"])
p("C13", "Token offsets index the document text",
  "After add_offsets, for every token of the document get_text(docgraph)[onset:offset] is exactly the token string, offsets are increasing, neighbouring tokens are separated by exactly one character, and nothing but the onset/offset attributes changed.",
  "all documents (token counts, token strings incl. empty ones)",
  "arithmetic over unbounded token lists",
  [DG + ":DiscourseDocumentGraph.add_offsets", DG + ":get_text", DG + ":DiscourseDocumentGraph._get_all_offsets"])
p("C14", "get_offsets computes missing offsets on demand",
  "get_offsets(token) returns the token's offsets, computing and storing them for the whole document if they are missing; a second call returns the same result without changing the graph. Non-token nodes raise an AssertionError. get_offsets() without a token yields all tokens in text order with their offsets.",
  "all documents and node IDs, including unknown ones",
  "error path recursion cannot be exhausted by tests",
  [DG + ":DiscourseDocumentGraph.get_offsets"])
p("C15", "is_continuous decides adjacency of a node's tokens",
  "is_continuous(node) is True iff the tokens dominated by the node form a gap-free stretch of the document's token list; get_span_offsets(node) is the onset of the textually first and the offset of the textually last token of the node.",
  "all documents and non-empty token sets", "all subsets of unbounded documents",
  [DG + ":is_continuous", DG + ":get_span_offsets"])
p("C16", "get_span returns exactly the dominated tokens, sorted",
  "On a graph whose non-pointing edges (self-loops ignored) are acyclic, get_span(node) terminates and its elements are exactly the token nodes reachable from node via non-pointing edges, sorted by natural sort key.",
  "all acyclic graphs, all nodes", "reachability over all graphs; termination",
  [DG + ":get_span"])
p("C17", "get_text and tokens2text concatenate the tokens in order",
  "get_text(docgraph) is the token strings in document order joined by single blanks; splitting it at blanks gives back the token strings if no token contains a blank and tokens are non-empty.",
  "all documents", "all token sequences",
  [DG + ":get_text", DG + ":tokens2text", DG + ":DiscourseDocumentGraph.get_tokens"])
p("C18", "Pointing chains follow pointing relations",
  "Every chain returned by get_pointing_chains has at least two elements and each consecutive pair is connected by a pointing relation of the requested layer.",
  "all graphs (where the call returns), layers", "all graphs",
  [DG + ":get_pointing_chains", DG + ":__walk_chain"])
p("C19", "Pointing chains are complete and maximal on acyclic relations",
  "If the pointing relations are acyclic, get_pointing_chains terminates; every chain starts at a node nothing points to and ends at a node that points nowhere; every such maximal path is returned exactly once; every pointing relation is part of some chain.",
  "all acyclic relation sets", "all DAGs; termination",
  [DG + ":get_pointing_chains", DG + ":__walk_chain"])
p("C20", "natural_sort_key orders numbered IDs numerically",
  "sorted(key=natural_sort_key) is a stable total preorder on IDs; for a common prefix not ending in a digit, prefix+str(a) sorts before prefix+str(b) iff a < b.",
  "all strings and naturals", "all strings",
  ["src/discoursegraphs/util.py:natural_sort_key"])
p("C21", "create_token_mapping maps tokens position by position or refuses",
  "If two graphs have the same token strings, create_token_mapping maps the i-th token ID of the first to the i-th of the second; any tokenization mismatch raises.",
  "all pairs of documents", "all token lists, lengths may differ",
  [DG + ":create_token_mapping"])
p("C22", "relabel_nodes renames and changes nothing else",
  "For an injective mapping to labels not yet used, relabel_nodes yields a graph whose nodes and edges (keys, attributes, layers) are those of the input with the endpoints renamed; edges and attributes are neither lost, duplicated nor altered.",
  "all graphs and mappings, all processing orders of the mapping", "isomorphism over all graphs",
  ["src/discoursegraphs/relabel.py:relabel_nodes", "src/discoursegraphs/relabel.py:_relabel_inplace"])
p("C23", "merge_graphs keeps everything of the receiving graph",
  "After g.merge_graphs(other), every node, edge, layer, token and sentence of g is still there and g's text is unchanged.",
  "all pairs of graphs with the same tokenization", "all graph pairs",
  [DG + ":DiscourseDocumentGraph.merge_graphs"])
p("C24", "merge_graphs imports everything of the merged graph",
  "After g.merge_graphs(other), every non-root node and every edge of other is present in g (token IDs renamed to g's), with all its attributes and layers, and edges leaving other's root now leave g's root; other's root is gone.",
  "all pairs of graphs with the same tokenization", "all graph pairs",
  [DG + ":DiscourseDocumentGraph.merge_graphs", DG + ":DiscourseDocumentGraph.merge_rootnodes", DG + ":rename_tokens"])
p("C25", "add_precedence_relations adds exactly the token chain",
  "add_precedence_relations adds exactly one precedence edge root->first token and one from each token to its successor, and changes nothing else.",
  "all graphs with at least two tokens", "unbounded token lists",
  [DG + ":DiscourseDocumentGraph.add_precedence_relations"])
p("C26", "get_kwic returns the keyword's context window",
  "For a valid index, get_kwic returns (before, keyword, after) with before+[keyword]+after a contiguous piece of the token list around index, with at most context_window tokens on each side and fewer only at the text boundary.",
  "all token lists, indices, window sizes", "boundary arithmetic",
  [DG + ":get_kwic"])
p("C27", "TokenMapper is a bijection between token IDs and positions",
  "TokenMapper.id2index and index2id are inverse to each other on the document's tokens; get_segment_token_offsets returns the smallest and largest position among the given tokens.",
  "all documents with distinct token IDs", "all token lists",
  ["src/discoursegraphs/util.py:TokenMapper", "src/discoursegraphs/util.py:get_segment_token_offsets"])
p("C28", "Span strings expand to the enumerated token IDs",
  "convert_spanstring expands comma separated IDs and 'p_a..p_b' ranges into exactly the listed IDs in order (both ends of a range included), and rejects mixed prefixes.",
  "all lists of spans", "all span strings",
  ["src/discoursegraphs/readwrite/generic.py:convert_spanstring"])
p("C29", "dot quoting is reversible",
  "unquote_from_pydot(quote_for_pydot(s)) == s for every string without line breaks, and the quoted form contains no unescaped inner quote.",
  "all strings", "all strings",
  ["src/discoursegraphs/readwrite/dot.py:quote_for_pydot", "src/discoursegraphs/readwrite/dot.py:unquote_from_pydot"])
p("C30", "FREQT export is a well-bracketed, uniquely decodable tree",
  "The FREQT string of a tree has balanced brackets regardless of brackets in token strings, POS tags and labels, and distinct labelled trees yield distinct strings (after escaping).",
  "all ordered labelled trees", "all trees and label strings",
  ["src/discoursegraphs/readwrite/freqt.py:node2freqt", "src/discoursegraphs/readwrite/freqt.py:sentence2freqt"])
p("C31", "Breadth-first export visits each dominated node once",
  "sorted_bfs_edges/successors yield, for every node reachable from the source over dominance edges, exactly one incoming edge (none for the source), children ordered by first covered token.",
  "all graphs", "all graphs, termination",
  ["src/discoursegraphs/readwrite/tree.py:sorted_bfs_edges", "src/discoursegraphs/readwrite/tree.py:sorted_bfs_successors", "src/discoursegraphs/readwrite/tree.py:horizontal_positions"])
p("C32", "RS3 writer emits unique IDs, valid parents and segments in text order",
  "write_rs3 gives each segment/group a distinct ID, each parent attribute refers to an emitted element, and the segments' texts in file order are the tree's EDUs in text order.",
  "all well-formed RST trees", "all trees",
  ["src/discoursegraphs/readwrite/rst/rs3/rs3filewriter.py:RS3FileWriter"])
p("C33", "RS3 write/read round-trip",
  "Reading back with read_rs3tree what write_rs3 wrote yields the same RST tree.",
  "all well-formed RST trees with distinct, non-empty, whitespace-normalised EDU texts, no relation called span and no relation name used both with and without a satellite; any contents of the class-level relation defaults without span", "all trees and all histories of earlier writes",
  ["src/discoursegraphs/readwrite/rst/rs3/rs3filewriter.py:RS3FileWriter", "src/discoursegraphs/readwrite/rst/rs3/rs3tree.py:RSTTree"])
p("C34", "DIS write/read round-trip",
  "Converting an RST tree to the .dis structure and reading it back with dis2tree yields the same RST tree.",
  "all well-formed RST trees", "all trees",
  ["src/discoursegraphs/readwrite/rst/dis/disfilewriter.py:convert", "src/discoursegraphs/readwrite/rst/dis/distree.py:dis2tree"])
p("C35", "Parser output converters preserve EDUs, relations and nuclearity",
  "HILDA, StageDP and DPLP parse trees are converted to trees with the same EDU sequence, one relation node per input relation carrying the relation name, and children labelled with the nuclearity given in the input label.",
  "all binary parse trees", "all trees",
  ["src/discoursegraphs/readwrite/rst/hilda.py:hildatree2dgparentedtree", "src/discoursegraphs/readwrite/rst/stagedp.py:stagedptree2dgparentedtree", "src/discoursegraphs/readwrite/rst/dplp.py:dplptree2dgparentedtree"])
p("C36", "Heilman/Sagae trees are converted without loss",
  "HS2015 parses are converted into trees with the same EDU sequence; nucleus-satellite, multinuclear and multi-satellite constellations are all handled.",
  "all HS2015 parse trees", "all trees",
  ["src/discoursegraphs/readwrite/rst/heilman_sagae_2015.py:hs2015tree2dgparentedtree"])
p("C37", "RST schemata are binarised without losing or reordering EDUs",
  "order_schema/convert_schema combine a nucleus and its satellites into a tree that contains every satellite subtree exactly once, whose EDUs are in text order, and in which every satellite hangs under a relation node bearing its relation name.",
  "all nuclei and satellite lists at distinct positions", "all numbers of satellites and positions",
  ["src/discoursegraphs/readwrite/rst/rs3/rs3tree.py:RSTTree.order_schema", "src/discoursegraphs/readwrite/rst/rs3/rs3tree.py:RSTTree.convert_schema"])
p("C38", "brat stand-off offsets point at the markable text",
  "For each T-line of the brat export, the text file content between the two offsets is exactly the markable text, each markable has its own T number, and R-lines only refer to existing T numbers.",
  "all documents and pointing chains", "all documents",
  ["src/discoursegraphs/readwrite/brat.py:brat_output"])
p("C39", "Bracket export is balanced and keeps the text",
  "gen_bracketed_output emits the tokens in order, opens one bracket per markable and closes as many as it opens; closing brackets carry the chain ID of a markable.",
  "all documents and markables", "all documents",
  ["src/discoursegraphs/readwrite/brackets.py:gen_bracketed_output"])
p("C40", "CoNLL export writes one numbered row per token",
  "The CoNLL export contains for each sentence exactly its tokens in order, numbered from 1, with a coreference column that opens and closes each markable exactly once at its first/last token.",
  "all documents", "all documents",
  ["src/discoursegraphs/readwrite/conll.py:Conll2009File"])
p("C41", "Exmaralda export and import",
  "The Exmaralda export has n+1 timeline points for n tokens, one [Ti, Ti+1) event per token in order, a tier per token attribute, per informative layer (events from the first to the last token of each node, with its label) and per coreference chain. Importing a document gives a token per timeline point in order of time, the token strings and annotations of one-token tiers as attributes, and root -> tier -> event -> token edges for span tiers; gen_token_range(Ti, Tj) is exactly Ti..Tj-1. Importing an exported document gives back the token strings, attributes and spans.",
  "all documents and all graphs with any annotation layers", "all documents; category clashes and span shapes",
  ["src/discoursegraphs/readwrite/exmaralda.py:ExmaraldaFile", "src/discoursegraphs/readwrite/exmaralda.py:ExmaraldaDocumentGraph.gen_token_range"])
p("C42", "Anaphoricity files round-trip",
  "Reading an anaphoricity file gives one token node per whitespace separated token in order, annotated (with word, type and certainty) iff it contains the annotation pattern; gen_anaphoricity_str writes the tokens in order, annotated iff the token is annotated and is the requested word; writing what was read reproduces tokens and annotations.",
  "all texts; all graphs with anaphoricity annotations", "all texts",
  ["src/discoursegraphs/readwrite/anaphoricity.py:AnaphoraDocumentGraph", "src/discoursegraphs/readwrite/anaphoricity.py:gen_anaphoricity_str"])
p("C43", "Conano reader keeps all tokens in document order; spans are what is between the tags",
  "For any nesting of units, connectives and modifiers, the Conano reader gives the words between the tags as tokens in document order, each attached to the innermost element containing it; with the (default) check a document is accepted iff these tokens are the whitespace separated words of the document's plain text. get_span of an element, get_conano_units and get_connective return exactly the tokens between the element's tags, in document order.",
  "all XML documents (element trees)", "all nestings, all positions of white space relative to the tags",
  ["src/discoursegraphs/readwrite/conano.py:ConanoDocumentGraph._add_element", "src/discoursegraphs/readwrite/conano.py:ConanoDocumentGraph.is_valid", "src/discoursegraphs/readwrite/conano.py:get_conano_units", "src/discoursegraphs/readwrite/conano.py:get_connective"])
p("C44", "Graph statistics count each element once per layer and attribute",
  "node_statistics/edge_statistics count for each layer (attribute) exactly the nodes (edges) that have it.",
  "all graphs", "all graphs",
  ["src/discoursegraphs/statistics.py:node_statistics", "src/discoursegraphs/statistics.py:edge_statistics"])
p("C45", "xpointer-safe IDs, prefixing and single-pass replacement",
  "ensure_xpointer_compatibility never returns a ':' and changes nothing else; add_prefix prefixes each key and keeps values; create_multiple_replace_func substitutes each occurrence once in a single left-to-right pass.",
  "all strings and dictionaries", "all strings",
  ["src/discoursegraphs/util.py:ensure_xpointer_compatibility", "src/discoursegraphs/util.py:add_prefix", "src/discoursegraphs/util.py:create_multiple_replace_func"])
p("C46", "Removing metadata and casting layers for export only changes what it says",
  "remove_root_metadata removes only 'metadata' from root nodes; layerset2list turns each layers set into a list with the same elements and changes nothing else.",
  "all graphs", "all graphs",
  ["src/discoursegraphs/readwrite/generic.py:remove_root_metadata", "src/discoursegraphs/readwrite/generic.py:layerset2list"])

exec(open(os.path.join(os.path.dirname(os.path.abspath(__file__)), "props_more.py")).read()) if os.path.exists(os.path.join(os.path.dirname(os.path.abspath(__file__)), "props_more.py")) else None
with open(os.path.join(os.path.dirname(os.path.abspath(__file__)), "..", "properties.jsonl"), "w") as f:
    for r in P:
        f.write(json.dumps(r, ensure_ascii=False) + "\n")
print(len(P), "properties")
