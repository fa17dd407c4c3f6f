# Formal model of discoursegraphs — design

(The first version was committed before the proofs; it is extended as the model grows.)

## Shape of the development

* `lean/Verif/Model/*.lean` – executable, total Lean functions mirroring the Python code branch by
  branch.  Each definition cites file and lines in /repo and states its simplifications.
* `lean/Verif/Lemmas/*.lean` – helper lemmas (no claims live here).
* `lean/Verif/Spec/*.lean` – small independent specifications (views of a graph, reachability, ...).
* `lean/Verif/Props/Cxx*.lean` – the property theorems, each followed by `example`s showing that its
  hypotheses are met by a concrete non-trivial case, and by `decide`d counterexample theorems
  where the code violates the English property.

## General modelling decisions

* Python dict / OrderedDict = insertion ordered association list `Dict` (replace in place or append).
  The inner adjacency and key dictionaries are plain dicts in the code
  (discoursegraph.py `self.succ[n] = {}`), whose order is arbitrary in Python 2; property theorems
  therefore speak about membership/count/permutation rather than order wherever the order depends on them.
* networkx' `pred` is derived from `succ`/`adj` (networkx shares the key dict objects between both).
* Exceptions are values: `Except PyErr α` where the code fails before changing anything and
  `α × Option PyErr` where a prefix of the effect survives the exception.
* `str` and `unicode` are identified (Python 2 compares them equal).
* Mutable aliasing is not in the value model; where aliasing is observable (C07) there is a separate
  heap model.
* Recursion that may not terminate takes fuel = the interpreter's recursion limit; running out is `PyErr.recursion`.

## Properties → model → proof

All rows are done; "partial" rows have theorems named `…_partial` together with `…_fails_…` theorems
that show, on concrete inputs checked by the kernel, where the code violates the full property.

| id | modelled (Model/…) | specification | proof |
|----|--------------------|---------------|-------|
| C01, C02 | all mutators of DiscourseDocumentGraph as `Op`, `step`, `run` (Graph) | views `HasNode`, `nodeAttr`, `edgeAttrs` | invariant / monotonicity per operation, induction over histories incl. failing calls; partial |
| C03–C06 | add_node, add_edge, add_edges_from (Graph) | attribute views | functional characterisation, induction over argument lists |
| C07 | add_layer (Graph), object identities (Heap) | views; ownership of set objects | frame lemma; heap invariant "no sharing"; partial |
| C08–C12 | select_*, get_*_layers (Select) | filter by membership | filter/generator induction |
| C13–C15 | add_offsets, get_offsets, get_span_offsets, is_continuous (Offsets) | Spec/Offsets: slices of the text | induction over tokens; interval tiling; C14 partial |
| C16 | get_span with fuel (Offsets) | reachability (`Spans`) | rank induction |
| C17 | get_text, tokens2text (Offsets) | join/split | list induction |
| C18, C19 | get_pointing_chains (Chains) | `PointsTo`, maximal paths | soundness for all graphs; completeness by rank |
| C20 | natural_sort_key (Text) | numeric order | digit chunking |
| C21–C24 | create_token_mapping, relabel, merge_graphs (Merge) | renamed views | induction over arbitrary processing orders; partial |
| C25 | add_precedence_relations (Graph) | edge set | induction over tokens |
| C26, C27, C45 | get_kwic, TokenMapper, ID mangling, replacement (Util) | slices, inverse functions, single pass | list/char induction |
| C28 | convert_spanstring (Spanstring) | `SpanItem` | char induction; partial |
| C29, C47 | dot.py (Dot) | unquoting; node/edge correspondence | char induction; partial |
| C30, C31, C51 | freqt.py, tree.py (Tree) | `Rose` trees, `Emits` | structural induction, queue invariant; C31, C51 partial |
| C32, C33, C52 | rs3filewriter.py, rs3tree.py (Rs3Write, Rs3) | `Rst` trees, segments of a file | simulation between writer tables and reader queries, structural induction |
| C34 | dis writer and reader on trees (Dis) | `Rst` trees | structural induction; partial |
| C35 | hilda, stagedp, dplp (Rst) | EDUs, relations, nuclearity of parse trees | structural induction |
| C36 | heilman_sagae_2015 (Hs2015) | structure of a parse | structural induction; partial |
| C37 | order_schema, convert_schema (Rs3) | text positions | fold invariant; partial |
| C38, C39 | brat.py, brackets.py (Coref) | Spec/Coref: markable spans, chains | fold invariants; partial |
| C40 | CoNLL writer (Conll) | Spec/Conll: rows, coreference column | fold invariants; partial |
| C41 | exmaralda.py reader and writer (Exmaralda) | Spec/Exmaralda: timeline, tiers, events | writer: list induction; reader: equality with a script of graph operations; partial |
| C42 | anaphoricity.py (Anaphoricity) | Spec/Anaphoricity, Spec/Words | char induction, reader script; partial |
| C43 | conano.py (Conano) | element trees, `PartOf` | reader script; partial |
| C44 | statistics.py (Statistics) | counting | fold invariant |
| C46, C48, C49 | generic.py, gexf.py, graphml.py, geoff.py, neo4j.py (Generic) | views | map/frame lemmas |
| C50 | make_labels_explicit (Labels) | views | fold; partial |
| C53 | CoNLL reader (ConllRead) | Spec/ConllRead: file grammar, features, resulting graph | char induction + reader script |
| C54 | CoNLL writer + reader (Conll, ConllRead) | token strings per sentence | composition of C40 and C53; partial |
| C55 | TIGER reader (Tiger) | document edges, nodes and attributes as written in the file (Spec/Tiger) | reader = script of conditional calls, copy of the sentence graph = script, `Built`; induction over sentences; partial |
| C56 | TIGER queries (Tiger) | edges of the graph / elements of the file | degree = number of incident edges; selection exactness (C11) + content of the read file (C55); partial |
| C57 | RS3 graph reader (RstGraph) | nodes, edges, tokens, types as functions of the elements of the file (Spec/RstGraph) | refinement of the graph to an abstract view (Lemmas/View) step by step; induction over the elements; partial |
| C58 | RST relation queries (RstGraph) | relations, subtrees and token positions in terms of the elements of the file (Spec/RstRel) | edges of the graph (C57) = parent relation; get_span exactness (C16); one edge per child; fold over the children; partial |
| C59 | .dis graph reader (DisGraph) | visited parts, nodes, edges, tokens as functions of the rhetorical structure (Spec/DisGraph) | reader = script of calls (induction over the structure); content of a script; targets of the edges are distinct; partial |
| C60 | URML reader, networkx dag_longest_path (Urml) | links, containment, paths of the document (Spec/Urml, Spec/Dag) | reader = script of calls; longest path by induction over predecessors, cycles by pigeonhole; edge targets are distinct; partial |
| C61 | Penn Treebank reader (Ptb) | syntax trees, numbered nodes (`PtbRows`), content of the graph (`PtbContent`) (Spec/Ptb) | reader = script of calls (mutual induction over trees and their parts); numbering by intervals; partial |
| C62 | MMAX2 reader with the aliased set of layers (Mmax) | words, markables, antecedents, sentences (Spec/Mmax `MmaxDoc`, `MmaxContent`) | reader = script of calls up to additional layers (simulation `Upto`); content of a script; induction over markables and levels; partial |
| C63 | ExportXML reader (ExportXml) | edges, layers, attributes of each element, number of times an element is read (Spec/ExportXml) | reader = script of calls (mutual induction over elements; parents before children); rows read = elements with multiplicity (counting); content of a script; partial |
| C64 | DeCour reader (Decour) | units and words of a document, accepted documents (Spec/Decour `DecContent`, `DecDoc.Ok`) | reader = script of calls (induction over turns, parts, words); content of a script; acceptance both ways; get_span from the list of edges (Lemmas/SpanSpec); partial |
| C65 | LaTeX export of RST trees (RstLatex) | rst.sty source of a structure without layout (Spec/RstLatex `tex`, `flat`) | induction over structures; indentation only adds tabs and keeps the command visible; bundles by an invariant of the insertion loop; injectivity by unique readability of groups; partial |
| C66 | PAULA export (Paula) | what the files of a document say (Spec/Paula `PaulaSays`) | renaming = `Renamed` (C22/C45), selections by C11, grouping = last edge per pair (invariant of the grouping fold), file names pairwise different; failures by preservation of missing attributes through relabelling; partial |
| C67 | Salt elements (Salt) | what an element stands for (Spec/Salt `Says`), usual form of elements | case distinction over the eight types; words of references; hexadecimal digits by induction; failures as general theorems; partial |
| C68 | SaltDocument, SaltXMIGraph (Salt) | what a file says (Spec/SaltDoc `SaysDoc`, `Consists`) | elements of a flat root = its children; invariant of the loop over edges (last value per attribute); failures as general theorems; partial |
| C69 | LinguisticDocument, extract_sentences (Salt) | enriched nodes, sentences (Spec/SaltDoc `enriched`, `SentencesOf`) | offsets: last relation wins; grouping and storing in any order of keys; classes never change, so no tokens or spans (general failure); induction over tokens for sentences; partial |
| C70 | DisFile, DisRSTTree, CodraRSTTree, DisFileWriter at the text level, nltk's parser and printer (DisText) | layouts (Spec/DisText `DisLayout`, `DisContent`), tokens of a tree | each pass over the text changes only EDUs (induction over layouts); lexer on layouts; parser sound and complete for token sequences of trees; printer yields layouts; undoing escapes; failures incl. a general theorem on escapes; partial |
| C71 | convert_node_labels_to_integers (IntLabels) | orderings and the numbered graph (Spec/IntLabels `Listing`, `Numbered`) | sorting specs (sorted permutation of an antisymmetric order is unique), degree = number of edges at a node, C22 for the renaming, loop over labels; root and tokens stay unnumbered (general failure); partial |
| C72 | texts of StageDP, Heilman/Sagae 2015 and DPLP files (ParserText); nltk's parser (DisText) | texts of trees (Spec/BracketText `BracketFile`), Python expressions for trees (Spec/ParserText) | lexer and parser sound and complete for texts (iff); split at the first occurrence; replacement of the class name goes through the expression piece by piece; expressions are injective; `eval` is a parameter with a stated (satisfiable) requirement; partial |
| C73 | PCC (Corpora) with lists of files and readers as parameters; merging any number of layers (`mergeAll`) | documents with layers (Spec/Layered `LayerIn`, `KeptIn`, `OnlyFrom`), IDs and file names (Spec/Corpora) | one merge keeps everything (C23/C24 core), induction over the layers with the claims for earlier layers carried on; pattern = infix lemma; sorting; partial as C24 |
| C74 | merging_cli (MergingCli) with readers, writers and file system as parameters | given files in order (Spec/MergingCli `FilesAre`), formats (`CliFormat`), layers (Spec/Layered) | the steps are a fold over the kinds of files = mergeAll of the given ones; first layer into the empty document, then C73; a merge that succeeds removes the root of the other graph, so the second removal always fails (NameError); partial as C24 |
| C75 | the readers (Tiger, RstGraph, Conano, Anaphoricity) and merge_graphs together | `Layer` / `Document` / `LayerIn` of Spec/Layered, `TigerWord`, `AnaphString`, `Tidy` (Spec/ReadLayers) | the content theorems of C42, C43, C55, C57 give all conditions of C73; different namespaces differ before the first colon; then mergeAll_spec; partial because of the namespace of the TigerXML reader |
| C76 | ExportXMLCorpus / URMLCorpus as a state machine: openings of the file with positions and emptied elements, iterators with the element they stand at, stored length (CorpusIter) | a book of what was given from which opening, kept from calls and outcomes only (Spec/CorpusIter `bookOf`, `documentsOf`, `PassedBy`) | invariants by induction over histories (snoc): position = number of documents given; elements emptied = passed by; loops by induction on the rest; partial: the reader must not raise StopIteration |
| C77 | merging_cli with the actual readers (CliFiles), MMAX2 reader as a layer | correct files with their words and IDs (Spec/CliFiles `CliText`), `LayerIn` / `Document` (Spec/Layered) | the MMAX2 reader keeps the graph invariant operation by operation (also when a shared set of layers grows); content from C62; each reader yields a layer whose nodes are IDs of the file or begin with a name of the reader, so graphs of different files have no node in common; then C74; partial as C24, C75 |
| C78 | get_potential_markables, get_phrases (Phrases) | categories and edges of the graph (`HasCat`, `ParentOf`); nonterminals and edges of the file (`Phrase`, `FileParent`, from C55's `docEdges`) | selection by layer (C08), sources of in_edges; counting of list elements; content of the TigerXML graph (C55) |
| C79 | word_wrap_tree, textwrap.dedent and fill (WordWrap) | letters of a text, its words (Spec/Words), length of its lines (Spec/WordWrap `LinesFit`: of every piece without a line break), `Chunker` for the regular expression | invariants of the packing of chunks into lines: letters, words and length of every line; enough fuel by the number of characters left |
| C80 | spanstring2text (SpanText), spanstring2tokens (Coref), merge_graphs, the MMAX2 reader | what an ID stands for: a node with a string, or the node it was renamed to (`SpanWord`, `SpanMissing`, `SpanBlank` in Spec/SpanText) | the record of renamed nodes after a merge is the old one updated with the token mapping (position by position, C21); induction over the merged layers (as C73); content of MMAX2 graphs (C62) |
| C81 | find_files, os.walk, os.path.join, PCC.__init__, get_files_by_layer (FindFiles) | a directory tree with files, subdirectories, links and directories that cannot be listed; `FileAt` (paths of files), `FitsGlob` (patterns), `pathOf` (absolute paths) | the walk is a permutation of the paths of all files whose last name fits; different names make different paths; with C73: files of a document |
| C82 | MMAXProject, get_word_file, get_file_id, MMAXDocumentGraph.__init__ (MmaxFiles) | a file system as a map from paths to parsed files; `IsCommon` (common_paths.xml), `InFolder` (the path of a file in a folder given by an element), `HasProject`, `HasLevel` | os.path.join and os.path.split on lists of characters; the loop over the levels builds the dictionary (fold); content by C62 |


The reader theorems use one common method: `Spec/Script.lean` defines scripts of graph operations and
`Lemmas/Script.lean` proves once what graph a script builds (`Built`); a reader is transcribed directly in
`Model`, proved equal to running a script, and its content is read off `Built`.

## Trusted base

* Lean 4.33 kernel.
* Axioms: every theorem depends at most on `propext`, `Classical.choice` and `Quot.sound`
  (vcheck replays all modules and reports none other; there are no own axioms and no
  compiler-trusting tactics; concrete examples use `decide`/`decide +kernel`, i.e. kernel evaluation).
* The transcription of Python into the model: nothing is executed, each definition cites the lines it models.
* Third-party behaviour that the model transcribes from documentation or source: networkx 1.x
  `MultiDiGraph` (storage, `edges`, `in_edges`, `topological_sort` order left arbitrary), nltk trees
  (labels, children, positions), Python 2 strings, `int`, `sorted` (stable), `str.split`, `dict`.
  lxml parsing/serialisation, file reading, character decoding, JSON and `eval` of parser output are
  outside of the model: readers start from the element tree or the text, writers end with it.

## Modelled and not modelled code (under src/discoursegraphs)

| file | modelled | not modelled |
|------|----------|--------------|
| discoursegraph.py | DiscourseDocumentGraph: constructor, add_*, add_layer, remove_node, merge_graphs, add_precedence_relations, token/sentence lists, offsets, get_*; module functions select_*, get_span, get_text, tokens2text, get_pointing_chains, get_annotation_layers, create_token_mapping, is_continuous, istoken | DiscourseCorpusGraph, IPython display, pickling |
| relabel.py | relabel_nodes (with a dict), convert_node_labels_to_integers (C71) | mappings given as functions |
| util.py | natural_sort_key, TokenMapper, get_kwic, get_segment_token_offsets, ensure_*, add_prefix, create_multiple_replace_func, make_labels_explicit | file handling (create_dir, find_files), sanitize_string, xmlprint |
| statistics.py | all counting functions | printing |
| corpora.py, merging.py | – | file-system walks and command line |
| readwrite/tree.py, freqt.py | graph-to-tree conversion, bracket strings, FREQT strings | drawing, `t`/`p` wrappers |
| readwrite/dot.py, generic.py, gexf.py, graphml.py, geoff.py, neo4j.py | what is handed to networkx/pydot/json | serialisation, drawing |
| readwrite/brat.py, brackets.py, conll.py, exmaralda.py, anaphoricity.py, conano.py | readers and writers | conll precedence option, file access |
| readwrite/rst/{hilda,stagedp,dplp,heilman_sagae_2015}.py | tree conversion; text level see ParserText | file reading, `eval`, JSON parsing |
| readwrite/rst/rs3/{rs3tree,rs3filewriter}.py | reader from elements, writer to elements | lxml, debug and word_wrap options, drawing |
| readwrite/rst/dis/* | tree level of distree and disfilewriter | text level: see DisText below; graph reader: see DisGraph below |
| readwrite/tiger.py | Tiger | everything except XML parsing, `__repr__`, the corpus ID and the dict of sentence attributes, which is computed but not used |
| readwrite/rst/rs3/rs3graph.py | RstGraph | everything except XML parsing, `__str__` and `rst_tokenlist` |
| readwrite/rst/dis/disgraph.py | DisGraph | everything except reading the file (see dis/disfile.py above) |
| readwrite/rst/urml.py | Urml | everything except XML parsing and extract_relationtypes; URMLCorpus: CorpusIter |
| readwrite/ptb.py | Ptb | everything except parsing of brackets (nltk), temporary files and the empty document without a path |
| readwrite/mmax2.py | Mmax, Coref, Spanstring | MMAXDocumentGraph and its helpers; not: MMAXProject (paths), comments among markables, get_potential_markables, writing of MMAX2 files |
| readwrite/exportxml.py | ExportXml | ExportXMLDocumentGraph for a `<text>` element; ExportXMLCorpus: CorpusIter; not: XML parsing, comments inside of a text, ancestors of the text |
| readwrite/decour.py | Decour | DecourDocumentGraph for a `<hearing>` element; not: XML parsing, other children of a turn |
| readwrite/rst/rstlatex.py | RstLatex | all but the file writer; rendering of a tree below a lone N/S node is a parameter |
| readwrite/paulaxml/paula.py | Paula | PaulaDocument (content of all files, DTDs), get_onsets; not: serialisation, human_readable comments, writing of files |
| readwrite/salt/*.py | Salt | reading and writing of elements, SaltDocument, SaltXMIGraph, LinguisticDocument, extract_sentences; not: XML parsing and serialisation, statistics, `__str__`, constructors with other arguments (SaltEdge and TokenNode cannot be constructed directly) |
| readwrite/rst/dis/common.py, distree.py, disfilewriter.py, codra.py (text level); nltk `Tree.fromstring`, `Tree.pformat` | DisText | reading and writing of the text of files without word wrap; not: encoding, temporary files, pictures |
| relabel.py (convert_node_labels_to_integers) | IntLabels | all of it; Python 2's order of mixed IDs, networkx' set_node_attributes |
| readwrite/rst/{stagedp,heilman_sagae_2015,dplp}.py (text level) | ParserText | everything but file access, `json.load` (its result is given) and `eval` (a parameter) |
| corpora.py | Corpora | PCC: files of a document, get_document, document_ids, len, index; not: the file system (lists of files are given), readers (parameters, modelled elsewhere), get_random_document, slices |
| merging.py | MergingCli, CliFiles | everything but argparse, creation of the output directory, printing; writers are parameters, readers are parameters (MergingCli) or the modelled ones (CliFiles, without the list of EDUs in the metadata) |
| mmax2.py (get_potential_markables), discoursegraph.py (get_phrases) | Phrases | all of both |
| tree.py (word_wrap_tree); Python's textwrap (dedent, fill) | WordWrap | all but the regular expression of TextWrapper._split (a parameter) |
| mmax2.py (spanstring2text) | SpanText | all |
| util.py (find_files), corpora.py (PCC.__init__, get_files_by_layer) | FindFiles | all but abspath and expanduser |
| mmax2.py (MMAXProject, file names) | MmaxFiles | all but expanduser and abspath; parsed files instead of bytes |
| others | – | see the rows above; everything not listed is not modelled |

## Findings

Deviations of the code from the properties are listed in the notes of MANIFEST.json and proved as
`cNN_fails_…`. The most consequential ones: `add_nodes_from(ids, layers=…)` overwrites layer sets (C01/C02);
layer sets passed twice are shared and later changed together (C07); create_token_mapping accepts a longer
first document (C21); relabel_nodes deletes nodes mapped to themselves (C22); merging loses layers of edges
leaving the root (C24); nuclei with several satellites cannot be converted from HS2015 (C36); equal EDU texts
break schema ordering (C37) and RS3 writing (C33); brat offsets cover gaps (C38); crossing markables are closed
with the wrong chain (C39); Exmaralda round trips add a token (C41); certainty is lost in anaphoricity files (C42);
make_labels_explicit repeats types of parallel edges (C50).
