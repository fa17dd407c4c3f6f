{
 "C01": {
  "note": "Edges: proved for all histories, including failing calls. Nodes: proved for histories in which add_nodes_from is not called with plain IDs plus a layers keyword. That call stores the given object unchecked, so the full claim is false; c01_fails_* are the kernel-checked counterexamples."
 },
 "C02": {
  "note": "Nodes, edges and edge layers: all histories. Node layers: all histories without the overwriting add_nodes_from call (counterexample c02_fails_for_plain_ids_with_layers_kwarg shows that the full claim is false of the code)."
 },
 "C07": {
  "note": "Value-level effect proved for all graphs. With object identities (heap model) the claim holds for clients that do not pass the graph the same set/dict object twice; c07_fails_for_shared_set/_dict show that the full claim (all ways the graph was built) is false of the code."
 },
 "C14": {
  "note": "Single token and idempotence: proved. get_offsets() without a token: proved once offsets are stored; when they are not, the generator raises (c14_fails_lazy_generator). Unknown node IDs raise KeyError, not AssertionError (c14_fails_unknown_node)."
 },
 "C21": {
  "note": "Mapping: proved. A longer first document is accepted silently (counterexample), so the mismatch half is partial."
 },
 "C22": {
  "note": "Proved for non-identity mappings in every processing order, also with overlapping labels. Nodes mapped to themselves are deleted by the code, and falsy labels with self loops lose edges (counterexamples)."
 },
 "C23": {
  "note": "Proved for all pairs, outcomes and processing orders; exceptions: the two graphs share a root ID, or share node IDs that carry token attributes (counterexample)."
 },
 "C24": {
  "note": "Proved for graphs with disjoint node IDs. Layers of edges leaving the root and graphs with equal token IDs are counterexamples."
 },
 "C28": {
  "note": "Full for IDs and ranges without leading zeros; ranges with leading zeros lose them (counterexample)."
 },
 "C29": {
  "note": "Reversibility: proved for all strings. 'No unescaped inner quote' fails when a backslash precedes a quote (counterexample)."
 },
 "C31": {
  "note": "Each reachable node once: proved. Totality needs a forest in which every node covers a token; uncovered nodes raise and parallel edges are yielded twice (counterexamples)."
 },
 "C34": {
  "note": "Proved except for the cases in which the code fails: one-EDU documents, blank EDUs, EDUs with '_!', relations called N or S (counterexamples)."
 },
 "C36": {
  "note": "Proved for all parses without nuclei that have several satellites; those raise an exception (counterexample)."
 },
 "C37": {
  "note": "Content and relation names: proved. Text order: proved if EDU texts are distinct; the code looks up positions by text, so equal texts are reordered or rejected (counterexamples)."
 },
 "C38": {
  "note": "Line format, relations and existence of T numbers proved. Offsets: contiguous markables only; numbers: markables in one chain only (counterexamples)."
 },
 "C39": {
  "note": "Balance and text: proved. Identity of the closed markable: nested spans only (counterexamples)."
 },
 "C40": {
  "note": "Format: proved for every graph. Rows: for graphs where a token is not reached from a markable over two paths (counterexample c40_fails_on_dags)."
 },
 "C41": {
  "note": "Writer, reader and gen_token_range: proved. Round trip: tokens, attributes and spans up to one additional last token, layers and attributes ending in ':tok', non-string attributes and document order of IDs (counterexamples)."
 },
 "C42": {
  "note": "Reader and writer: proved. Round trip: certainty, annotations of the other word and text around an annotation are lost (counterexamples)."
 },
 "C43": {
  "note": "Tokens, order, attachment and the check: proved. Spans, units and connectives: if elements have different IDs; two modifiers of one connective are merged (counterexample)."
 },
 "C47": {
  "note": "Proved except for graphs in which an int ID and a string ID have the same text, which are merged (counterexample)."
 },
 "C50": {
  "note": "Proved for graphs without parallel edges; with parallel edges the code appends the type several times to one edge (counterexample)."
 },
 "C51": {
  "note": "Tree shape, order and balance: proved. Decoding: only without brackets in tokens and labels, as the code does not escape them (counterexample)."
 },
 "C53": {
  "note": "Format conditions are part of the property; c53_fails_* show files outside of it (second blank line, CRLF, empty file) being rejected, a 'token=' feature replacing the token string and non-termination of traverse_dependencies_up on cycles."
 },
 "C54": {
  "note": "Proved for documents without empty sentences and without tabs/line breaks in tokens, up to one additional empty sentence that the reader makes of the last line; each exclusion has a counterexample."
 },
 "C55": {
  "note": "Proved for all valid files; partial since a secondary edge of a nonterminal in a sentence without an earlier <edge> raises (UnboundLocalError), and token strings are only accessible in the namespace 'tiger' (c55_fails_*): sentences are always read with namespace 'tiger'; a secedge gets the label of the previous edge; one-token sentences share one virtual root; nodes referred to only by secedges stay unreachable; nodes referred to before they are defined keep the layer 'secedge'."
 },
 "C56": {
  "note": "Exact for all graphs; in terms of the file partial: with another namespace words count as subordinate clauses, terminals with secondary edges count as nonterminals, the virtual root of a one-word sentence counts as terminal (c56_fails_*)."
 },
 "C57": {
  "note": "Exact for all files with unique colon-free IDs, existing parents and at most one root group; partial: segment_type 'nucleus' depends on the document order, a second root group removes the first one with its edges, layers of token edges are hard-coded 'rst' (c57_fails_*)."
 },
 "C58": {
  "note": "Exact for files read with namespace 'rst', without precedence edges; partial: hard-coded namespace, precedence edges are followed by get_span, empty segments raise ValueError, undeclared relations count as relation roots, multinuclear relations may have satellites contrary to the documentation (c58_fails_*)."
 },
 "C59": {
  "note": "Exact content of the graph for all well-formed structures without `_!`; partial: the first part of every relation below the top one is dropped with its text, relations of EDUs are dropped, satellites made of a nucleus and a satellite raise NotImplementedError, get_span raises KeyError on EDUs (c59_fails_*)."
 },
 "C60": {
  "note": "Exact content of the graph for all documents with unique IDs, exact conditions for success and each exception, networkx dag_longest_path modelled and proved correct; partial: alternative analyses with swapped nucleus and satellite cannot be read, several top-level elements are not connected to the root, get_span of a nucleus contains the tokens of its satellite (c60_fails_*)."
 },
 "C61": {
  "note": "Exact content of the graph (nodes, numbering, edges, attributes, layers, tokens, sentences) for all lists of syntax trees whose words stand inside parts of speech and are not '-NONE-'; partial: ignore_traces=False only affects direct parts of sentences, sentences and one-part phrases have no category, bare words raise KeyError, limit=0 reads everything (c61_fails_*)."
 },
 "C62": {
  "note": "Content of the graph for all projects with unique IDs and all orders of levels, exact up to additional layers (exact without qualified antecedents), conditions for KeyError, IOError, AssertionError; partial: qualified antecedents change the layers of all markables of the file through a shared set object, layers depend on the order of a set, projects without sentences cannot be read (c62_fails_*)."
 },
 "C63": {
  "note": "Content of the graph for all texts with known elements (exact, with multiplicities), tokens, attributes, one parent, connectedness, ignore options, unknown elements; partial: children of a word are read twice, so that coreference relations of pronouns are duplicated; self-loops of named entities; attributes of sentences are lost (c63_fails_*)."
 },
 "C64": {
  "note": "Content, accepted documents (iff), annotations, tree, get_span for all documents; the text in order is proved for documents with at most one act per turn, at its beginning (c64_text_partial), and false otherwise (c64_fails_text, c64_fails_acts); leftover root node (c64_fails_root)."
 },
 "C65": {
  "note": "Source and injectivity for structures without rst.sty commands in unit texts, relation names that are not N/S/MONONUC-MULTISAT, bundles with left satellites first; counterexamples for single segments, right-first bundles, commands and braces in texts (c65_fails_*)."
 },
 "C66": {
  "note": "Content of all files for graphs with colon-separated, collision-free IDs, typed edges, string values and dotless plain layers; c66_fails_* show that each of these conditions is needed (general theorems for IDs without colon and for other values) and that the root is not excluded."
 },
 "C67": {
  "note": "Reading characterised exactly; write-read identity for everything read; read-write identity for elements in the usual form with a layers attribute. Missing: elements without layers and labels without value (c67_fails_*), texts beyond Latin-1 (c67_fails_hex)."
 },
 "C68": {
  "note": "Documents: exact. Graphs: full content without parallel relations and with all ends present; c68_graph_built says what is built otherwise. c68_fails_*: parallel relations are merged, missing ends become empty nodes, other types (pointing relations) cannot be read."
 },
 "C69": {
  "note": "Offsets, dominance lists, text, ID proved; sentences as a function. Missing: tokens of spans, spans of tokens and sentences of documents, which no document ever gets (c69_fails_tokens_sentences_spans, general theorem), and tokens after the last full stop."
 },
 "C70": {
  "note": "Missing from the full claim: EDUs with the letters of escaped brackets (no tree read from any file contains -LRB-: c70_fails_escapes), marks or comments; EDUs in several lines; relation names that are empty or contain blanks; documents of one EDU; backslashes in CODRA files. c70_fails_* are witnesses."
 },
 "C71": {
  "note": "Missing from the full claim: a node that already has the number it would get, the label 0 for a node with an edge to itself, label_attribute=\"layers\", circular renamings (raise NetworkXUnfeasible). c71_fails_root (general): root and token list of the result are not numbered, so the root is no node of the result."
 },
 "C72": {
  "note": "Missing from the full claim: nuclei with several satellites in Heilman/Sagae files (as C36); DPLP words or names with ParentedTree, quotes or backslashes; Python's eval is a parameter of which only the evaluation of tree expressions is assumed (c72_evaluator: satisfiable)."
 },
 "C73": {
  "note": "Missing from the full claim: layers of edges at the roots and layers that share token IDs with the document (as C24); layers that use the token attribute of the document; attributes of nodes shared by several layers may be those of a later layer."
 },
 "C74": {
  "note": "Missing from the full claim: layers of edges at the roots and layers that share token IDs (as C24); anaphoricity files always fail (c74_fails_anaphoricity)."
 },
 "C75": {
  "note": "Missing from the full claim: the TigerXML reader writes the token strings to `tiger:token` whatever the namespace is (c75_fails_tiger_namespace), so c75_tiger_partial is about the default namespace; c75_all_layers_partial needs the conditions on IDs. MMAX2 is part of C77."
 },
 "C76": {
  "note": "Missing from the full claim: documents whose conversion raises StopIteration (which would end a loop silently; the readers handle their own StopIteration, c76_exportxml shows that documents as in C63 can be read), the fixed length of the Tueba-D/Z file (c76_fails_len), documents inside of documents. Files which are not well-formed are not modelled."
 },
 "C77": {
  "note": "Missing from the full claim: as C24 and C75 (layers of edges at the roots; IDs shared between files, c77_fails_shared_id); anaphoricity files always fail (c74_fails_anaphoricity). The list of EDUs in the metadata of RST documents is not modelled."
 },
 "C78": {
  "note": "Missing from the full claim: graphs with phrases without category, forward references and sentences whose root is a word, and duplicates in the list (c78_markables_key, c78_tiger_key, c78_fails_duplicates, c78_fails_forward_reference, c78_fails_other_namespace: the documented claims are false there)."
 },
 "C79": {
  "note": "Partial: words that contain a hyphen or are longer than the width become two words (c79_fails_hyphen, c79_fails_long_word), and a negative width raises ValueError (c79_fails_negative). textwrap (dedent, expandtabs, munging, chunk packing) is modelled from Python's library; the regular expression of TextWrapper._split is a parameter with a specification (Chunker)."
 },
 "C80": {
  "note": "Partial: layers and projects as C73 and C62; IDs that several layers (or the document) use stand for the token of the first one (c80_fails_shared_ids). convert_spanstring is covered by C28, renaming and merging by C23, C24 and C73."
 },
 "C81": {
  "note": "Partial: c81_fails_unicode (a directory given as unicode object is iterated over by its characters), and documents as C73. os.walk and os.path.join are modelled from Python's library; the file system is a parameter (what is listed in each directory, in any order); sets of characters in brackets in patterns are not modelled."
 },
 "C82": {
  "note": "Proved for the document (content of the graph) under the conditions of C62; c82_document_partial is partial as C62's content theorem is (IDs used once, no cyclic or sentence antecedents), and because the parsed files are modelled, not their bytes. The paths and levels of the project (c82_project), shared files and the failures are proved for all file systems."
 }
}