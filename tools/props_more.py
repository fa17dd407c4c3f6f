p("C47", "Graphviz export keeps every node, edge and label",
  "For every document graph, preprocess_for_pydot returns a graph with the same name, exactly one node per node (named by its quoted ID), exactly one edge per edge (parallel edges included) between the quoted IDs of its ends, each with its quoted label if it has one and without any other attribute.",
  "all document graphs with IDs and labels of any text", "IDs and labels are arbitrary text; collisions between quoted names only show for particular graphs",
  ["src/discoursegraphs/readwrite/dot.py:preprocess_for_pydot"])
p("C48", "Geoff export writes one line per node and one per edge",
  "convert_to_geoff writes exactly one line per node followed by exactly one line per edge with the right source and target; the written properties are those of the graph with layers as lists, and a node without a label is labelled by its (string) ID.",
  "all document graphs, set iteration orders and property encoders without line breaks", "arbitrary graphs and set orders",
  ["src/discoursegraphs/readwrite/geoff.py:graph2geoff", "src/discoursegraphs/readwrite/neo4j.py:convert_to_geoff"])
p("C49", "GEXF/GraphML preparation leaves only scalar attributes and loses nothing else",
  "The graph that write_gexf and write_graphml hand to networkx has the same nodes and edges as the document graph, has only scalar attribute values, keeps scalar attributes unchanged and loses no attribute except the metadata of root nodes, provided the other attributes are scalars or lists.",
  "all document graphs with scalar or list attributes", "arbitrary graphs and attribute combinations",
  ["src/discoursegraphs/readwrite/gexf.py:write_gexf", "src/discoursegraphs/readwrite/graphml.py:write_graphml"])
p("C50", "make_labels_explicit appends IDs and edge types exactly once",
  "After make_labels_explicit every node label ends in '_<node ID>' and every edge label is '<label>_<edge type>' (or the edge type if there was no label); nothing else changes.",
  "all document graphs", "parallel edges only go wrong in particular graphs",
  ["src/discoursegraphs/util.py:make_labels_explicit"])
p("C51", "PTB bracket strings show the dominance tree and can be read back",
  "tree2bracket(g, root) is the Penn Treebank notation of the dominance tree below root: every node below root exactly once, below the node that dominates it, siblings in text order; the string is balanced and the labelled tree can be recovered from it, whatever the tokens, tags and labels are.",
  "all document graphs, roots, tokens and labels", "arbitrary trees and label strings; unescaped brackets only show for particular tokens",
  ["src/discoursegraphs/readwrite/tree.py:tree2bracket", "src/discoursegraphs/readwrite/tree.py:node2bracket"])
p("C52", "Reading an RS3 file keeps every EDU exactly once",
  "If read_rs3tree returns a tree, its leaves are, up to order, the (whitespace-normalised) texts of the segments of the file: none is lost and none occurs twice.",
  "all RS3 files with distinct IDs in which every element is below a root and every element with a parent has a relname",
  "files can nest groups, satellites and multinuclear relations arbitrarily deep, in any document order",
  ["src/discoursegraphs/readwrite/rst/rs3/rs3tree.py:RSTTree", "src/discoursegraphs/readwrite/rst/rs3/rs3tree.py:get_rs3_data"])
p("C53", "Reading a CoNLL file gives exactly its sentences, words, features and dependencies",
  "For every file in the CoNLL format of 2009 or 2010 (sentences separated by one empty line, words numbered with different numbers within a sentence, LF line ends) ConllDocumentGraph has exactly the sentences and words of the file in order, each word with all its columns, its token string (unless a feature is called 'token'), its number and the features its feature string gives it, and one dependency edge from the node of its head (the sentence for 0) with the relation of the file; there are no other nodes and edges. Files that are empty or have a line with the wrong number of columns or an unnumbered word are rejected. traverse_dependencies_up yields the attribute values of the heads of a word up to the root.",
  "all CoNLL files, namespaces and choices of head, relation and feature columns", "files, column contents and feature strings are arbitrary text; number collisions, stray separators and cycles only show for particular files",
  ["src/discoursegraphs/readwrite/conll.py:ConllDocumentGraph", "src/discoursegraphs/readwrite/conll.py:traverse_dependencies_up"])
p("C54", "CoNLL export and import round trip",
  "Writing a document with write_conll and reading the file with ConllDocumentGraph gives a document with the same sentences in the same order, each with the same token strings in the same order.",
  "all documents whose sentences list their tokens, all choices of columns", "sentence and token contents are arbitrary; separators inside tokens and empty sentences only show for particular documents",
  ["src/discoursegraphs/readwrite/conll.py:Conll2009File", "src/discoursegraphs/readwrite/conll.py:ConllDocumentGraph"])
p("C55", "Reading a TigerXML file gives exactly its sentences, terminals, nonterminals and edges",
  "For every TigerXML file with the required attributes and unique IDs, TigerDocumentGraph has exactly the terminals and nonterminals of the file as nodes (plus the document root and a virtual root where a sentence root is a terminal), each with all its XML attributes, its label and its layers; exactly one edge per <edge> (spans to terminals, dominates otherwise), one pointing edge per <secedge> with its own label, one dominance edge from the sentence root to each unconnected node, one from the document root to each sentence; the token list has the terminals in text order with their words, the sentence list one root per sentence; every node below a sentence root can be reached from the document root.",
  "all TigerXML files, any number and shape of sentences (crossing edges, secondary edges, forward references), any namespace", "files, shapes and IDs are arbitrary; ID collisions, forward references and unconnected nodes only show for particular files",
  ["src/discoursegraphs/readwrite/tiger.py:TigerDocumentGraph", "src/discoursegraphs/readwrite/tiger.py:TigerSentenceGraph"])
p("C56", "Queries on TIGER graphs: unconnected nodes, terminals, subordinate clauses",
  "get_unconnected_nodes returns exactly the nodes without incoming and outgoing edges (nothing for a one-node graph); _get_terminals_and_nonterminals returns exactly the terminals and nonterminals of the sentence in natural order; get_subordinate_clauses returns exactly the nonterminals connected to a clause (category S) by an edge labelled MO, RC or SB.",
  "all graphs, all TigerXML files and namespaces", "arbitrary graph shapes; secondary edges, isolated nodes and other namespaces only show for particular files",
  ["src/discoursegraphs/readwrite/tiger.py:get_unconnected_nodes", "src/discoursegraphs/readwrite/tiger.py:_get_terminals_and_nonterminals", "src/discoursegraphs/readwrite/tiger.py:get_subordinate_clauses"])
p("C57", "Reading an RS3 file into a document graph gives exactly its segments, groups, relations and tokens",
  "For every .rs3 file with unique IDs, existing parents and one root group, RSTGraph has exactly the segments and groups of the file as nodes (plus a default root if there is no root group, plus one node per whitespace-separated word of each segment if tokenized), each with its text, type, label and layers; exactly one edge from the parent of each element to it, with relation name and type, spanning or dominating according to the header; one spanning edge from each segment to each of its tokens; without precedence edges no node has two incoming edges; the token list has the words in text order; the EDU list has the segments in document order; an element with a satellite has the segment type nucleus.",
  "all RS3 files (any nesting, any document order), namespaces and reader options", "files nest arbitrarily deep in any document order; forward references, several roots and the order of satellites only show for particular files",
  ["src/discoursegraphs/readwrite/rst/rs3/rs3graph.py:RSTGraph", "src/discoursegraphs/readwrite/rst/rs3/common.py:extract_relationtypes"])
p("C58", "RST relation queries report exactly the relations of the file",
  "In a document read from an .rs3 file, get_span of a segment or group returns exactly the tokens below it; get_rst_relation_root_nodes yields exactly the elements that dominate a satellite or a nucleus of a multinuclear relation; get_rst_relations describes for each of them its own tokens, its nucleus, and each satellite and each multinuclear nucleus exactly once, with relation name and tokens; get_rst_spans has one row per multinuclear nucleus and two per satellite, with the positions of the first and last token.",
  "all RS3 files (any nesting, any document order)", "trees are arbitrarily deep; namespaces, precedence edges, empty segments and undeclared relations only show for particular files",
  ["src/discoursegraphs/readwrite/rst/rs3/rs3graph.py:get_rst_relation_root_nodes", "src/discoursegraphs/readwrite/rst/rs3/rs3graph.py:get_rst_relations", "src/discoursegraphs/readwrite/rst/rs3/rs3graph.py:get_rst_spans"])
p("C59", "Reading a .dis file into a document graph gives a tree whose nodes, texts, relations and tokens are those of the parts read",
  "For every .dis file that stands for a well-formed rhetorical structure without `_!` in its EDUs, RSTLispDocumentGraph either raises NotImplementedError, exactly if a part that is visited is a satellite made of a nucleus and a satellite, or gives a graph that has exactly one node for the root, for every visited part and for every word of a visited EDU, with the text, label, relation and node type of the part; exactly one edge from each part to each visited part of it; without precedence edges the graph is a tree below the root; the token list has the words of the visited EDUs in document order and get_tokens() returns them.  Expected but false: all EDUs and relations of the file appear (the first part of every relation below the top one is dropped; relations of EDUs are dropped), get_span works on EDU nodes.",
  "all rhetorical structures (any depth and width), namespaces and reader options", "structures nest arbitrarily deep; dropped parts and satellites of satellites only show in deep files",
  ["src/discoursegraphs/readwrite/rst/dis/disgraph.py:RSTLispDocumentGraph", "src/discoursegraphs/readwrite/rst/dis/common.py:get_node_id"])
p("C60", "Reading a URML document gives exactly its segments, relations and tokens, below a root that dominates them",
  "For every URML document with unique IDs, URMLDocumentGraph has exactly the segments and relations of the document and the arguments of relations as nodes, plus one node per sign or (if tokenized) per word, each with its text, label, relation name and type and layers; exactly one edge from each segment to each of its tokens, from each paratactic relation to each nucleus, from each hypotactic relation to its nucleus and from the nucleus to the satellite, with name and type of the relation; the token list and EDU list are in document order; the root is the origin of a longest path and has no incoming edge.  If each element is argument of one relation at most and no relation contains itself, reading succeeds and every node except for top-level ones has exactly one incoming edge; if there is one top-level element, it is the root and everything can be reached from it.  Malformed relations, cycles and documents without anything to connect raise AssertionError, NetworkXUnfeasible and IndexError.  Expected but false: alternative analyses of the same segments can be read, several top-level elements are connected to the root, the span of a nucleus is its own text.",
  "all URML documents (any number and nesting of relations, also dangling and cyclic ones), namespaces and reader options", "structures nest arbitrarily deep; cycles, alternatives and several top-level elements only show for particular documents",
  ["src/discoursegraphs/readwrite/rst/urml.py:URMLDocumentGraph", "src/discoursegraphs/readwrite/rst/urml.py:extract_segment_types", "src/discoursegraphs/readwrite/rst/common.py:get_segment_label"])
p("C61", "Reading a Penn Treebank file gives exactly the syntax trees of its sentences, without empty elements, and its words in text order",
  "For every file whose sentences are phrases, PTBDocumentGraph has exactly one node for the document and one for each phrase and word that is not an empty element, numbered from left to right; exactly one dominance edge to each of them, from the phrase, sentence or document it is part of, so that without precedence edges the graph is a tree; the token list has the words in text order, each with text (names of brackets replaced by brackets) and part of speech; the sentence list has the sentences read.  Expected but false: `ignore_traces=False` keeps empty elements, every phrase has its category and is in the syntax layer, limit=0 reads nothing, words outside of a part of speech can be read.",
  "all lists of syntax trees (any depth and width), namespaces and reader options", "trees are arbitrarily deep; numbering gaps and nested empty elements only show for particular trees",
  ["src/discoursegraphs/readwrite/ptb.py:PTBDocumentGraph"])
p("C62", "Reading an MMAX2 project gives exactly its words, markables, antecedents and sentences, whatever the order of the levels",
  "For every MMAX2 project with unique IDs, at least one sentence and a word in each sentence, and every order in which the levels are looked at, MMAXDocumentGraph succeeds and has exactly one node for the root, each word, markable, antecedent (also missing ones) and sentence; the attributes of a markable in its level's file; exactly one edge from each markable to each token of its span that exists, and one to each antecedent; the words as token list in document order, and the sentences sorted by their first token, each with its list of tokens; words, sentences and the root are in exactly their layers, markables at least in theirs, and other layers are only those of levels named by antecedents of the same level or of levels that point at the markable.  If antecedents do not name levels, edges have exactly the layers of their level and so do markables not pointed at from other levels.  Without sentence level: KeyError; with a name that is not the file name: IOError; without file for a level: AssertionError.  Expected but false: markables have only the layers of their level, independent of the order of levels, projects without sentences can be read.",
  "all projects (any number of levels, markables, antecedents), all orders of levels, namespaces and reader options", "the order of levels is the order of a set; layers are shared between markables through an aliased set, which only shows for particular combinations of antecedents and orders",
  ["src/discoursegraphs/readwrite/mmax2.py:MMAXDocumentGraph", "src/discoursegraphs/readwrite/mmax2.py:spanstring2tokens", "src/discoursegraphs/discoursegraph.py:add_node"])

p("C63", "Reading an ExportXML document gives exactly the syntax, discourse and coreference structure of its elements",
  "For every ExportXML text element whose descendants have known tags and the required attributes, ExportXMLDocumentGraph succeeds and the graph has exactly the nodes, edges, layers and attributes that its elements stand for: dominance edges from the text to sentences, from the parent (attribute parent, or closest enclosing node or sentence) to nodes and words; spanning edges from edu and topic to the words inside, from edu-range to the edus inside, from ne to its children; pointing relations for discRel, relation, splitRelation and secEdge.  Tokens are the words in document order (if no word is inside of a word).  With different IDs, all XML attributes of an element are attributes of its node, words have their form as label and token, edu/topic/sentence have the list of words inside, and each sentence, node and word is dominated by exactly one node, and reachable from the root if parents are enclosing elements.  The ignore options remove exactly the edges of the ignored elements.  A text with an unknown element cannot be read.  Expected but false: each relation is in the graph once (the children of a word are read twice), named entities do not span themselves, sentences keep their attributes.",
  "all texts (any depth and number of elements), namespaces and reader options", "the number of times an element is read depends on its nesting; parents are looked up along arbitrarily deep chains of ancestors; tests use one or two corpus documents",
  ["src/discoursegraphs/readwrite/exportxml.py:ExportXMLDocumentGraph"])

p("C64", "Reading a DeCour transcript gives exactly its units, words and annotations, and the tokens of every unit",
  "For every hearing, DecourDocumentGraph succeeds (without precedence edges) if and only if there is an introduction with text, turns and utterances are numbered, and every utterance has text and three children with at least as many words as the utterance.  The graph then has exactly one node per introduction, turn, first act of a turn, utterance, conclusion and word, exactly one dominance edge to each unit from its turn or the root, exactly one spanning edge to each word from its unit; the i-th word of an utterance has the i-th normal form, lemma and part of speech; get_span of a turn returns the tokens of its act and its utterances, get_span of the root all tokens in order.  Expected but false: the tokens are the text of the document in order (only the first act of a turn is read, before all utterances), every node is part of the document (root of the base class).",
  "all documents (any number of turns, acts, utterances, words), names and namespaces", "which documents are accepted depends on word counts of parallel annotation lists; lost acts and clashes of names only show for particular documents; there is no test of this reader in the repository",
  ["src/discoursegraphs/readwrite/decour.py:DecourDocumentGraph"])

p("C65", "LaTeX export of an RST tree is the source of exactly that tree, and nothing is lost",
  "For every RST structure of units, multinuclear relations, nucleus-satellite relations and bundles of satellites around a nucleus, rsttree2rstlatex succeeds and its result, apart from line breaks and tabs, is the rst.sty source of that structure: each unit once as a segment with normalised text, each relation with its name and its parts in text order.  Two structures in normal form with equal exports are equal.  A relation with a bare unit as a child is rejected.  Expected but false: a document of a single segment is a segment (the backslash is lost); a satellite to the left of the nucleus is drawn on the left (not if the first one is on the right); units whose text contains an rst.sty command are segments; braces in texts are escaped.",
  "all trees (any depth and number of children, satellites), indentation levels", "the export rewrites strings (indentation of already indented text, recognition of subtrees by a pattern in the generated source), which goes wrong only for particular nestings and texts",
  ["src/discoursegraphs/readwrite/rst/rstlatex.py:rsttree2rstlatex", "src/discoursegraphs/readwrite/rst/rstlatex.py:make_multisat"])

p("C66", "PAULA export of a document graph consists of files that say exactly what the graph says",
  "For every reachable graph with tokens whose node IDs contain a colon, whose renaming is collision-free, whose edges are typed, whose exported attribute values are strings and whose layer names have no dots, PaulaDocument succeeds and gives files with distinct names: the text of the document, the tokens (each mark selects exactly the characters of its token), for each top-level layer the spans, the hierarchy, the pointing relations and the attributes of tokens, nodes and edges (each node, each pair of connected nodes, each attribute once, none invented), and the list of all files; the files of a layer refer to each other consistently.  Expected but false: node IDs without colon can be exported, attributes with other values than strings can be exported, the root is left out, parallel edges, sub-layers and layers whose name starts with that of another layer are kept apart, names keep what follows a dot.",
  "all document graphs (any number of nodes, edges, layers, attributes), all orders of relabelling, corpus names and options", "the export goes through renaming of all nodes, selection by layer and type and grouping by source and target; what is lost depends on collisions of names, parallel edges and empty nodes that tests on one corpus document do not contain",
  ["src/discoursegraphs/readwrite/paulaxml/paula.py:PaulaDocument", "src/discoursegraphs/readwrite/paulaxml/paula.py:get_onsets"])
p("C67", "Salt elements: what is read is what the element says, and writing is inverse to reading",
  "An element of a SaltXMI file with only labels inside can be read iff it stands for an object of one of the eight known types, and the object has exactly its labels, name, ID, layers, ends, offsets, text and annotations; an object that was read can be written and read again and is then the same; an element in the usual form is written as it was; a label made from scratch has the hexadecimal form of its value.",
  "all XML elements (any attributes, labels, references), all strings", "references, numbers and labels can have any form and number; the exact set of readable elements and the round trip concern all of them",
  ["src/discoursegraphs/readwrite/salt/elements.py:SaltElement", "src/discoursegraphs/readwrite/salt/nodes.py:SaltNode", "src/discoursegraphs/readwrite/salt/edges.py:SaltEdge", "src/discoursegraphs/readwrite/salt/layers.py:SaltLayer", "src/discoursegraphs/readwrite/salt/labels.py:SaltLabel", "src/discoursegraphs/readwrite/salt/util.py:string2xmihex"])
p("C68", "Salt documents and graphs contain every element of the file",
  "A SaltXMI file can be read iff its root has an ID and each element stands for an object; the document has one object for each element in the order of the file, so references are positions; the graph of the file has the nodes of the document under their numbers with their attributes and the relations of the document as its edges with their attributes.",
  "all SaltXMI files (any number of nodes, edges and layers, in any order)", "relations between the same nodes, references to missing nodes and element types occur in any combination",
  ["src/discoursegraphs/readwrite/salt/saltxmi.py:SaltDocument", "src/discoursegraphs/readwrite/salt/saltxmi.py:SaltXMIGraph", "src/discoursegraphs/readwrite/salt/saltxmi.py:create_class_instance"])
p("C69", "A Salt linguistic document connects tokens, spans, structures, sentences and text",
  "A document whose first node is a text, and whose relations connect nodes of the document, becomes a linguistic document in which each node has the offsets of its textual relation, the nodes it dominates and is dominated by, each span its tokens and each token its spans, in file order, whatever the order of the keys of the dicts; sentences go up to the next full stop and contain all tokens; tokens and sentences can be printed.",
  "all SaltXMI documents, all orders of dict keys", "class lookups, grouping and positional references interact; whether anything is found at all depends on the classes of all objects read",
  ["src/discoursegraphs/readwrite/salt/saltxmi.py:LinguisticDocument", "src/discoursegraphs/readwrite/salt/nodes.py:extract_sentences"])
p("C70", "Text of .dis files: reading in any layout, brackets in EDUs, round trip with the writer",
  "The content of a .dis file, whatever its white space between the parts, is read as the rhetorical structure that it describes, with the brackets of the EDU texts as they are; unbalanced files are rejected; what write_dis writes is such a file and is read back as the same tree (white space in EDUs normalised); files of the CODRA parser are read with plain double quotes.",
  "all rhetorical structures and all layouts of their files", "lexing, escaping and unescaping of brackets, pairing of marks and printing with line breaks interact for every text and every nesting",
  ["src/discoursegraphs/readwrite/rst/dis/common.py:DisFile", "src/discoursegraphs/readwrite/rst/dis/common.py:convert_parens_in_rst_tree_str", "src/discoursegraphs/readwrite/rst/dis/distree.py:DisRSTTree", "src/discoursegraphs/readwrite/rst/dis/disfilewriter.py:DisFileWriter", "src/discoursegraphs/readwrite/rst/dis/codra.py:CodraRSTTree"])
p("C71", "Numbering the nodes of a graph",
  "convert_node_labels_to_integers returns the same graph with its nodes called first_label, first_label+1, ... in the order asked for (as in the graph, sorted, by increasing or by decreasing degree, equal degrees by ID); node and edge attributes, layers and keys are kept, the old labels are stored in the attribute asked for, the original graph is unchanged; other orderings raise NetworkXError.",
  "all document graphs, first labels, orderings, label attributes and orders of renaming", "renaming goes node by node through all edges and depends on which labels are already in use and on hash order",
  ["src/discoursegraphs/relabel.py:convert_node_labels_to_integers", "src/discoursegraphs/relabel.py:_relabel_copy", "src/discoursegraphs/relabel.py:_relabel_inplace"])
p("C72", "Text of parser output files (StageDP, Heilman/Sagae 2015, DPLP) is converted into the structure it describes",
  "Exactly the texts with balanced labelled brackets around one tree, in any layout, are read as bracketed trees, and as one tree only.  A StageDP file for a structure becomes the tree of that structure, and nothing else is converted; a file of the Heilman/Sagae parser becomes the tree of its first parse, files without tokens, parses or tree raise KeyError or IndexError; a DPLP file is split in front of its parse tree and becomes the tree of its structure.  Expected but false: underscores in the text of a StageDP file are kept; words that contain the name of the tree class can occur in DPLP files.",
  "all texts, all structures and layouts of their files", "lexing, bracket matching, splitting and textual replacement have to be right for every nesting, every layout and every text",
  ["src/discoursegraphs/readwrite/rst/stagedp.py:StageDPRSTTree", "src/discoursegraphs/readwrite/rst/heilman_sagae_2015.py:HS2015RSTTree", "src/discoursegraphs/readwrite/rst/dplp.py:DPLPRSTTree"])
p("C73", "Documents of the Potsdam Commentary Corpus have all annotation layers of a text",
  "Any number of layers of the same text with different IDs can be merged into one document: the result has the tokens and text of the document, everything of the document and of each layer, nothing else (edges are counted), and all metadata.  The files of a document are exactly the files with its ID, in all layers, whatever the order of the dict of layers; get_document merges all of them, raises TypeError if there are none and passes on errors of the readers; document_ids are the IDs of all tokenized files, sorted; an index selects from them and counts from the end if it is negative.  Expected but false: parts of an ID find nothing; a corpus object lists its own documents.",
  "all corpora (any number of files and layers), all document graphs, all IDs, orders of the dict and chances of the renaming", "merging one layer after the other renames tokens, removes roots and overwrites attributes; whether earlier layers survive all later ones depends on all IDs in all layers; selection by pattern depends on all file names and directories",
  ["src/discoursegraphs/corpora.py:PCC", "src/discoursegraphs/discoursegraph.py:DiscourseDocumentGraph.merge_graphs", "src/discoursegraphs/util.py:find_files"])
p("C74", "The command line application merges the given files and writes the result in the format asked for",
  "If the given files exist, can be read and are layers of the same text with different IDs, the application builds a document with the text and tokens of the first one, which has all layers completely (syntax, rhetorical structure, connectives, coreference) and nothing else but its root, with the metadata of all; this graph is given exactly once to the writer of the format, with the name of the output file; no-output writes nothing; a missing file leads to AssertionError before anything is read; errors of readers and merging are passed on; without files the document is empty.  Expected but false: anaphoricity files can be merged; unknown formats are rejected at once; pickle files go to standard output by default.",
  "all combinations of files, all document graphs, formats, output names and chances of the renaming", "whatever is merged first determines names and tokens for everything that follows; each combination of kinds of files is a different history of merges",
  ["src/discoursegraphs/merging.py:merging_cli", "src/discoursegraphs/discoursegraph.py:DiscourseDocumentGraph.merge_graphs"])
p("C75", "What the readers return can be merged into one document",
  "For every well-formed file, what the readers for TigerXML, RST, Conano and anaphoricity files return is a layer as merging needs it: a well-formed graph in which every node has a layer, the tokens are different and have the words of the file as strings, the root is a node, no token, and no edge leads to it, and (if the namespaces differ) no node uses the token attribute of the other documents. So if the files of a text contain the same words and their IDs do not get into each other's way, reading all four files and merging the results works and the document has all four annotations completely.  Expected but false: this also holds for TigerXML files read with another namespace.",
  "all valid TigerXML, RST, Conano and anaphoricity files with the same words, all chances of the renaming", "the readers are written independently of each other, each builds its graph with other calls; whether merge_graphs can cope with the result depends on every node and edge of every file",
  ["src/discoursegraphs/discoursegraph.py:DiscourseDocumentGraph.merge_graphs", "src/discoursegraphs/readwrite/tiger.py:TigerDocumentGraph", "src/discoursegraphs/readwrite/rst/rs3/rs3graph.py:RSTGraph", "src/discoursegraphs/readwrite/conano.py:ConanoDocumentGraph", "src/discoursegraphs/readwrite/anaphoricity.py:AnaphoraDocumentGraph"])
p("C76", "A corpus read document by document gives each document once, in order",
  "ExportXMLCorpus and URMLCorpus: over every history of iter, next, len and _reset_corpus_iterator (any number of iterators, interleaved, abandoned, ended by exceptions), the documents given from an opening of the file are the first ones of the file, in its order, each exactly once, whoever asks; next() and an iterator give the first document not given yet or StopIteration; len is the number of documents at any time and disturbs nothing; a loop gives what is left and, after a reset, everything; a second loop without reset gives nothing.  With debug an element stays as in the file until its iterator is asked for the next one.  Expected but false: len of a file with the name of the Tueba-D/Z corpus is 3258 whatever its content (c76_fails_len); list(corpus) with debug contains empty elements only (c76_fails_list); a document which cannot be read ends the loop, the next loop goes on behind it (c76_fails_broken).",
  "all files (trees without documents inside of documents), all readers, all histories of calls", "the state of the opening is shared by all iterators of a corpus; which document comes next depends on the whole history of calls",
  ["src/discoursegraphs/readwrite/exportxml.py:ExportXMLCorpus", "src/discoursegraphs/readwrite/rst/urml.py:URMLCorpus", "src/discoursegraphs/readwrite/generic.py:XMLElementCountTarget"])
p("C77", "From the files to the output: the application merges the TigerXML, RST, Conano and MMAX files of a text",
  "If the files given to merging.py (any combination of a TigerXML, an RST and a Conano file and an MMAX project) are correct and contain the same words, and their IDs cannot be mixed up with each other or with IDs made by the readers, then each file can be read, and the application writes, in the format asked for, exactly one document, whose tokens are those of the first file, with the words as their strings, which has every node, edge, attribute and layer of all files, and nothing else but its root.  In particular what the MMAX2 reader returns for a correct project is a layer as merging needs it.  Expected but false: files that use the same IDs are told apart (or rejected).",
  "all combinations of correct files with the same words, all formats, output names and chances of the renaming", "it depends on every node and edge of every file whether the graph made by one reader can be merged with those of the others",
  ["src/discoursegraphs/merging.py:merging_cli", "src/discoursegraphs/readwrite/mmax2.py:MMAXDocumentGraph", "src/discoursegraphs/readwrite/tiger.py:TigerDocumentGraph", "src/discoursegraphs/readwrite/rst/rs3/rs3graph.py:RSTGraph", "src/discoursegraphs/readwrite/conano.py:ConanoDocumentGraph", "src/discoursegraphs/discoursegraph.py:DiscourseDocumentGraph.merge_graphs"])
p("C78", "The phrases of a document: get_potential_markables and get_phrases",
  "For every document graph whose phrases have categories, get_potential_markables returns exactly the PPs of the syntax layer, the NPs without a PP as a parent, and the PPs above NPs of the layer (an NP once, a PP once for itself and once for each edge to an NP); one node of the layer without a category makes it raise KeyError. get_phrases yields each node of the layer with the category asked for once. For a document read from a TigerXML file these are the PPs and the NPs not below a PP of the file, and the phrases of the file with this category, if no sentence root is a word and phrases are declared before they are mentioned; a sentence whose root is a word makes get_potential_markables fail for the whole document.",
  "all well-formed document graphs, all categories and namespaces, all valid TigerXML files", "which nodes are in the syntax layer depends on the order of all elements of the file; one sentence decides on the result for all",
  ["src/discoursegraphs/readwrite/mmax2.py:get_potential_markables", "src/discoursegraphs/discoursegraph.py:DiscourseDocumentGraph.get_phrases"])
p("C79", "Line wrapping of the EDUs of an RST tree changes nothing but white space",
  "word_wrap_tree with a positive width succeeds for every tree, keeps its labels and structure, loses, adds and moves no character of an EDU other than white space, gives no line longer than the width, and keeps the words of every EDU without hyphens and without words longer than the width; width 0 changes nothing.",
  "all trees, all texts (any white space, tabs, line breaks), all widths, all ways of splitting texts into chunks", "the lines depend on the lengths of all words before them in the text",
  ["src/discoursegraphs/readwrite/tree.py:word_wrap_tree"])
p("C80", "The text of a span: spanstring2text, also after merging",
  "spanstring2text joins, with single blanks and in the order of the span, the strings of the tokens that the IDs of the span stand for; IDs of words that are not in the file are left out; a node without a string in the namespace of the document makes it raise KeyError. In the graph of an MMAX2 project the text of each markable and sentence is its words in the file. After any number of layers were merged into a document, the IDs of the tokens of each layer still stand for the words at their positions, although the tokens were renamed.",
  "all document graphs and span strings, all valid MMAX2 projects, all sequences of merged layers and all chances of renaming", "the node found for an ID depends on all merges and renamings before",
  ["src/discoursegraphs/readwrite/mmax2.py:spanstring2text", "src/discoursegraphs/readwrite/mmax2.py:spanstring2tokens", "src/discoursegraphs/discoursegraph.py:DiscourseDocumentGraph.merge_graphs"])
p("C81", "Finding files: find_files and the files of the corpus",
  "find_files of a directory yields the absolute paths of exactly the files below it, at any depth, whose names fit the pattern, each of them once, whatever the order in which directories are listed; links to directories and directories that cannot be listed are left out, a missing directory yields nothing. Of a list of files it yields those whose whole path fits, in order. The layers of PCC consist of the files below their directories that fit their patterns, and the files of a document are those called ID.extension.",
  "all directory trees, listing orders, patterns of characters, * and ?, and root directories", "trees can have any depth and breadth",
  ["src/discoursegraphs/util.py:find_files", "src/discoursegraphs/corpora.py:PCC.__init__", "src/discoursegraphs/corpora.py:PCC.get_files_by_layer"])
p("C82", "The files of an MMAX2 project",
  "MMAXDocumentGraph of a base file <project>/<ID>.mmax reads the words from the file named in the base file, in the folder for base data that common_paths.xml gives (the project itself if the element is empty, a path below it with or without a slash at the end, or an absolute path), and the markables of every level of common_paths.xml from the file <ID><extension> in the folder for markables; the graph has the content of the document in those files. Levels with the same extension share their file. Without common_paths.xml, without one of its five paths, or without a file of words, reading fails.",
  "all file systems, project directories with absolute paths, IDs, folders, levels with their extensions, documents as in C62", "any file system and any layout of the project",
  ["src/discoursegraphs/readwrite/mmax2.py:MMAXProject._parse_common_paths_file", "src/discoursegraphs/readwrite/mmax2.py:MMAXDocumentGraph.get_word_file", "src/discoursegraphs/readwrite/mmax2.py:MMAXDocumentGraph.get_file_id", "src/discoursegraphs/readwrite/mmax2.py:MMAXDocumentGraph.__init__"])
