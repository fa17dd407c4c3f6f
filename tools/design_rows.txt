| C54 | CoNLL writer + reader (Conll, ConllRead) | token strings per sentence | composition of C40 and C53; partial |
| C55 | TIGER reader (Tiger) | document edges, nodes and attributes as written in the file (Spec/Tiger) | reader = script of conditional calls, copy of the sentence graph = script, `Built`; induction over sentences; partial |
| C56 | TIGER queries (Tiger) | edges of the graph / elements of the file | degree = number of incident edges; selection exactness (C11) + content of the read file (C55); partial |
| C57 | RS3 graph reader (RstGraph) | nodes, edges, tokens, types as functions of the elements of the file (Spec/RstGraph) | refinement of the graph to an abstract view (Lemmas/View) step by step; induction over the elements; partial |
| C58 | RST relation queries (RstGraph) | relations, subtrees and token positions in terms of the elements of the file (Spec/RstRel) | edges of the graph (C57) = parent relation; get_span exactness (C16); one edge per child; fold over the children; partial |
| C59 | .dis graph reader (DisGraph) | visited parts, nodes, edges, tokens as functions of the rhetorical structure (Spec/DisGraph) | reader = script of calls (induction over the structure); content of a script; targets of the edges are distinct; partial |
| C60 | URML reader, networkx dag_longest_path (Urml) | links, containment, paths of the document (Spec/Urml, Spec/Dag) | reader = script of calls; longest path by induction over predecessors, cycles by pigeonhole; edge targets are distinct; partial |
| C61 | Penn Treebank reader (Ptb) | syntax trees, numbered nodes (`PtbRows`), content of the graph (`PtbContent`) (Spec/Ptb) | reader = script of calls (mutual induction over trees and their parts); numbering by intervals; partial |
| C62 | MMAX2 reader with the aliased set of layers (Mmax) | words, markables, antecedents, sentences (Spec/Mmax `MmaxDoc`, `MmaxContent`) | reader = script of calls up to additional layers (simulation `Upto`); content of a script; induction over markables and levels; partial |
| C63 | ExportXML reader (ExportXml) | edges, layers, attributes of each element, number of times an element is read (Spec/ExportXml) | reader = script of calls (mutual induction over elements; parents before children); rows read = elements with multiplicity (counting); content of a script; partial |
| C64 | DeCour reader (Decour) | units and words of a document, accepted documents (Spec/Decour `DecContent`, `DecDoc.Ok`) | reader = script of calls (induction over turns, parts, words); content of a script; acceptance both ways; get_span from the list of edges (Lemmas/SpanSpec); partial |
| C65 | LaTeX export of RST trees (RstLatex) | rst.sty source of a structure without layout (Spec/RstLatex `tex`, `flat`) | induction over structures; indentation only adds tabs and keeps the command visible; bundles by an invariant of the insertion loop; injectivity by unique readability of groups; partial |
| C66 | PAULA export (Paula) | what the files of a document say (Spec/Paula `PaulaSays`) | renaming = `Renamed` (C22/C45), selections by C11, grouping = last edge per pair (invariant of the grouping fold), file names pairwise different; failures by preservation of missing attributes through relabelling; partial |
| C67 | Salt elements (Salt) | what an element stands for (Spec/Salt `Says`), usual form of elements | case distinction over the eight types; words of references; hexadecimal digits by induction; failures as general theorems; partial |
| C68 | SaltDocument, SaltXMIGraph (Salt) | what a file says (Spec/SaltDoc `SaysDoc`, `Consists`) | elements of a flat root = its children; invariant of the loop over edges (last value per attribute); failures as general theorems; partial |
| C69 | LinguisticDocument, extract_sentences (Salt) | enriched nodes, sentences (Spec/SaltDoc `enriched`, `SentencesOf`) | offsets: last relation wins; grouping and storing in any order of keys; classes never change, so no tokens or spans (general failure); induction over tokens for sentences; partial |
| C70 | DisFile, DisRSTTree, CodraRSTTree, DisFileWriter at the text level, nltk's parser and printer (DisText) | layouts (Spec/DisText `DisLayout`, `DisContent`), tokens of a tree | each pass over the text changes only EDUs (induction over layouts); lexer on layouts; parser sound and complete for token sequences of trees; printer yields layouts; undoing escapes; failures incl. a general theorem on escapes; partial |
| C71 | convert_node_labels_to_integers (IntLabels) | orderings and the numbered graph (Spec/IntLabels `Listing`, `Numbered`) | sorting specs (sorted permutation of an antisymmetric order is unique), degree = number of edges at a node, C22 for the renaming, loop over labels; root and tokens stay unnumbered (general failure); partial |
| C72 | texts of StageDP, Heilman/Sagae 2015 and DPLP files (ParserText); nltk's parser (DisText) | texts of trees (Spec/BracketText `BracketFile`), Python expressions for trees (Spec/ParserText) | lexer and parser sound and complete for texts (iff); split at the first occurrence; replacement of the class name goes through the expression piece by piece; expressions are injective; `eval` is a parameter with a stated (satisfiable) requirement; partial |
| C73 | PCC (Corpora) with lists of files and readers as parameters; merging any number of layers (`mergeAll`) | documents with layers (Spec/Layered `LayerIn`, `KeptIn`, `OnlyFrom`), IDs and file names (Spec/Corpora) | one merge keeps everything (C23/C24 core), induction over the layers with the claims for earlier layers carried on; pattern = infix lemma; sorting; partial as C24 |
| C74 | merging_cli (MergingCli) with readers, writers and file system as parameters | given files in order (Spec/MergingCli `FilesAre`), formats (`CliFormat`), layers (Spec/Layered) | the steps are a fold over the kinds of files = mergeAll of the given ones; first layer into the empty document, then C73; a merge that succeeds removes the root of the other graph, so the second removal always fails (NameError); partial as C24 |
| C75 | the readers (Tiger, RstGraph, Conano, Anaphoricity) and merge_graphs together | `Layer` / `Document` / `LayerIn` of Spec/Layered, `TigerWord`, `AnaphString`, `Tidy` (Spec/ReadLayers) | the content theorems of C42, C43, C55, C57 give all conditions of C73; different namespaces differ before the first colon; then mergeAll_spec; partial because of the namespace of the TigerXML reader |
| C76 | ExportXMLCorpus / URMLCorpus as a state machine: openings of the file with positions and emptied elements, iterators with the element they stand at, stored length (CorpusIter) | a book of what was given from which opening, kept from calls and outcomes only (Spec/CorpusIter `bookOf`, `documentsOf`, `PassedBy`) | invariants by induction over histories (snoc): position = number of documents given; elements emptied = passed by; loops by induction on the rest; partial: the reader must not raise StopIteration |
| C77 | merging_cli with the actual readers (CliFiles), MMAX2 reader as a layer | correct files with their words and IDs (Spec/CliFiles `CliText`), `LayerIn` / `Document` (Spec/Layered) | the MMAX2 reader keeps the graph invariant operation by operation (also when a shared set of layers grows); content from C62; each reader yields a layer whose nodes are IDs of the file or begin with a name of the reader, so graphs of different files have no node in common; then C74; partial as C24, C75 |
| C78 | get_potential_markables, get_phrases (Phrases) | categories and edges of the graph (`HasCat`, `ParentOf`); nonterminals and edges of the file (`Phrase`, `FileParent`, from C55's `docEdges`) | selection by layer (C08), sources of in_edges; counting of list elements; content of the TigerXML graph (C55) |
| C79 | word_wrap_tree, textwrap.dedent and fill (WordWrap) | letters of a text, its words (Spec/Words), length of its lines (Spec/WordWrap `LinesFit`: of every piece without a line break), `Chunker` for the regular expression | invariants of the packing of chunks into lines: letters, words and length of every line; enough fuel by the number of characters left |
| C80 | spanstring2text (SpanText), spanstring2tokens (Coref), merge_graphs, the MMAX2 reader | what an ID stands for: a node with a string, or the node it was renamed to (`SpanWord`, `SpanMissing`, `SpanBlank` in Spec/SpanText) | the record of renamed nodes after a merge is the old one updated with the token mapping (position by position, C21); induction over the merged layers (as C73); content of MMAX2 graphs (C62) |
| C81 | find_files, os.walk, os.path.join, PCC.__init__, get_files_by_layer (FindFiles) | a directory tree with files, subdirectories, links and directories that cannot be listed; `FileAt` (paths of files), `FitsGlob` (patterns), `pathOf` (absolute paths) | the walk is a permutation of the paths of all files whose last name fits; different names make different paths; with C73: files of a document |
| C82 | MMAXProject, get_word_file, get_file_id, MMAXDocumentGraph.__init__ (MmaxFiles) | a file system as a map from paths to parsed files; `IsCommon` (common_paths.xml), `InFolder` (the path of a file in a folder given by an element), `HasProject`, `HasLevel` | os.path.join and os.path.split on lists of characters; the loop over the levels builds the dictionary (fold); content by C62 |
