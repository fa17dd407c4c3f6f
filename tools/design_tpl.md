# Formal model of discoursegraphs — design

(The first version was committed before the proofs; it is extended as the model grows.)

## Shape of the development

* `lean/Verif/Model/*.lean` – executable, total Lean functions mirroring the Python code branch by
  branch.  Each definition cites file and lines in /repo and states its simplifications.
* `lean/Verif/Lemmas/*.lean` – helper lemmas (no claims live here).
* `lean/Verif/Spec/*.lean` – small independent specifications (views of a graph, reachability, ...).
* `lean/Verif/Props/Cxx*.lean` – the property theorems, each followed by `example`s showing that its
  hypotheses are met by a concrete non-trivial case, and by `decide`d counterexample theorems
  where the code violates the English property.

## General modelling decisions

* Python dict / OrderedDict = insertion ordered association list `Dict` (replace in place or append).
  The inner adjacency and key dictionaries are plain dicts in the code
  (discoursegraph.py `self.succ[n] = {}`), whose order is arbitrary in Python 2; property theorems
  therefore speak about membership/count/permutation rather than order wherever the order depends on them.
* networkx' `pred` is derived from `succ`/`adj` (networkx shares the key dict objects between both).
* Exceptions are values: `Except PyErr α` where the code fails before changing anything and
  `α × Option PyErr` where a prefix of the effect survives the exception.
* `str` and `unicode` are identified (Python 2 compares them equal).
* Mutable aliasing is not in the value model; where aliasing is observable (C07) there is a separate
  heap model.
* Recursion that may not terminate takes fuel = the interpreter's recursion limit; running out is `PyErr.recursion`.

## Properties → model → proof

All rows are done; "partial" rows have theorems named `…_partial` together with `…_fails_…` theorems
that show, on concrete inputs checked by the kernel, where the code violates the full property.

| id | modelled (Model/…) | specification | proof |
|----|--------------------|---------------|-------|
| C01, C02 | all mutators of DiscourseDocumentGraph as `Op`, `step`, `run` (Graph) | views `HasNode`, `nodeAttr`, `edgeAttrs` | invariant / monotonicity per operation, induction over histories incl. failing calls; partial |
| C03–C06 | add_node, add_edge, add_edges_from (Graph) | attribute views | functional characterisation, induction over argument lists |
| C07 | add_layer (Graph), object identities (Heap) | views; ownership of set objects | frame lemma; heap invariant "no sharing"; partial |
| C08–C12 | select_*, get_*_layers (Select) | filter by membership | filter/generator induction |
| C13–C15 | add_offsets, get_offsets, get_span_offsets, is_continuous (Offsets) | Spec/Offsets: slices of the text | induction over tokens; interval tiling; C14 partial |
| C16 | get_span with fuel (Offsets) | reachability (`Spans`) | rank induction |
| C17 | get_text, tokens2text (Offsets) | join/split | list induction |
| C18, C19 | get_pointing_chains (Chains) | `PointsTo`, maximal paths | soundness for all graphs; completeness by rank |
| C20 | natural_sort_key (Text) | numeric order | digit chunking |
| C21–C24 | create_token_mapping, relabel, merge_graphs (Merge) | renamed views | induction over arbitrary processing orders; partial |
| C25 | add_precedence_relations (Graph) | edge set | induction over tokens |
| C26, C27, C45 | get_kwic, TokenMapper, ID mangling, replacement (Util) | slices, inverse functions, single pass | list/char induction |
| C28 | convert_spanstring (Spanstring) | `SpanItem` | char induction; partial |
| C29, C47 | dot.py (Dot) | unquoting; node/edge correspondence | char induction; partial |
| C30, C31, C51 | freqt.py, tree.py (Tree) | `Rose` trees, `Emits` | structural induction, queue invariant; C31, C51 partial |
| C32, C33, C52 | rs3filewriter.py, rs3tree.py (Rs3Write, Rs3) | `Rst` trees, segments of a file | simulation between writer tables and reader queries, structural induction |
| C34 | dis writer and reader on trees (Dis) | `Rst` trees | structural induction; partial |
| C35 | hilda, stagedp, dplp (Rst) | EDUs, relations, nuclearity of parse trees | structural induction |
| C36 | heilman_sagae_2015 (Hs2015) | structure of a parse | structural induction; partial |
| C37 | order_schema, convert_schema (Rs3) | text positions | fold invariant; partial |
| C38, C39 | brat.py, brackets.py (Coref) | Spec/Coref: markable spans, chains | fold invariants; partial |
| C40 | CoNLL writer (Conll) | Spec/Conll: rows, coreference column | fold invariants; partial |
| C41 | exmaralda.py reader and writer (Exmaralda) | Spec/Exmaralda: timeline, tiers, events | writer: list induction; reader: equality with a script of graph operations; partial |
| C42 | anaphoricity.py (Anaphoricity) | Spec/Anaphoricity, Spec/Words | char induction, reader script; partial |
| C43 | conano.py (Conano) | element trees, `PartOf` | reader script; partial |
| C44 | statistics.py (Statistics) | counting | fold invariant |
| C46, C48, C49 | generic.py, gexf.py, graphml.py, geoff.py, neo4j.py (Generic) | views | map/frame lemmas |
| C50 | make_labels_explicit (Labels) | views | fold; partial |
| C53 | CoNLL reader (ConllRead) | Spec/ConllRead: file grammar, features, resulting graph | char induction + reader script |
@@ROWS@@

The reader theorems use one common method: `Spec/Script.lean` defines scripts of graph operations and
`Lemmas/Script.lean` proves once what graph a script builds (`Built`); a reader is transcribed directly in
`Model`, proved equal to running a script, and its content is read off `Built`.

## Trusted base

* Lean 4.33 kernel.
* Axioms: every theorem depends at most on `propext`, `Classical.choice` and `Quot.sound`
  (vcheck replays all modules and reports none other; there are no own axioms and no
  compiler-trusting tactics; concrete examples use `decide`/`decide +kernel`, i.e. kernel evaluation).
* The transcription of Python into the model: nothing is executed, each definition cites the lines it models.
* Third-party behaviour that the model transcribes from documentation or source: networkx 1.x
  `MultiDiGraph` (storage, `edges`, `in_edges`, `topological_sort` order left arbitrary), nltk trees
  (labels, children, positions), Python 2 strings, `int`, `sorted` (stable), `str.split`, `dict`.
  lxml parsing/serialisation, file reading, character decoding, JSON and `eval` of parser output are
  outside of the model: readers start from the element tree or the text, writers end with it.

## Modelled and not modelled code (under src/discoursegraphs)

| file | modelled | not modelled |
|------|----------|--------------|
| discoursegraph.py | DiscourseDocumentGraph: constructor, add_*, add_layer, remove_node, merge_graphs, add_precedence_relations, token/sentence lists, offsets, get_*; module functions select_*, get_span, get_text, tokens2text, get_pointing_chains, get_annotation_layers, create_token_mapping, is_continuous, istoken | DiscourseCorpusGraph, IPython display, pickling |
| relabel.py | relabel_nodes (with a dict), convert_node_labels_to_integers (C71) | mappings given as functions |
| util.py | natural_sort_key, TokenMapper, get_kwic, get_segment_token_offsets, ensure_*, add_prefix, create_multiple_replace_func, make_labels_explicit | file handling (create_dir, find_files), sanitize_string, xmlprint |
| statistics.py | all counting functions | printing |
| corpora.py, merging.py | – | file-system walks and command line |
| readwrite/tree.py, freqt.py | graph-to-tree conversion, bracket strings, FREQT strings | drawing, `t`/`p` wrappers |
| readwrite/dot.py, generic.py, gexf.py, graphml.py, geoff.py, neo4j.py | what is handed to networkx/pydot/json | serialisation, drawing |
| readwrite/brat.py, brackets.py, conll.py, exmaralda.py, anaphoricity.py, conano.py | readers and writers | conll precedence option, file access |
| readwrite/rst/{hilda,stagedp,dplp,heilman_sagae_2015}.py | tree conversion; text level see ParserText | file reading, `eval`, JSON parsing |
| readwrite/rst/rs3/{rs3tree,rs3filewriter}.py | reader from elements, writer to elements | lxml, debug and word_wrap options, drawing |
| readwrite/rst/dis/* | tree level of distree and disfilewriter | text level: see DisText below; graph reader: see DisGraph below |
@@FILES@@

## Findings

Deviations of the code from the properties are listed in the notes of MANIFEST.json and proved as
`cNN_fails_…`. The most consequential ones: `add_nodes_from(ids, layers=…)` overwrites layer sets (C01/C02);
layer sets passed twice are shared and later changed together (C07); create_token_mapping accepts a longer
first document (C21); relabel_nodes deletes nodes mapped to themselves (C22); merging loses layers of edges
leaving the root (C24); nuclei with several satellites cannot be converted from HS2015 (C36); equal EDU texts
break schema ordering (C37) and RS3 writing (C33); brat offsets cover gaps (C38); crossing markables are closed
with the wrong chain (C39); Exmaralda round trips add a token (C41); certainty is lost in anaphoricity files (C42);
make_labels_explicit repeats types of parallel edges (C50).
