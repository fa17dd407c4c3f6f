| readwrite/tiger.py | Tiger | everything except XML parsing, `__repr__`, the corpus ID and the dict of sentence attributes, which is computed but not used |
| readwrite/rst/rs3/rs3graph.py | RstGraph | everything except XML parsing, `__str__` and `rst_tokenlist` |
| readwrite/rst/dis/disgraph.py | DisGraph | everything except reading the file (see dis/disfile.py above) |
| readwrite/rst/urml.py | Urml | everything except XML parsing and extract_relationtypes; URMLCorpus: CorpusIter |
| readwrite/ptb.py | Ptb | everything except parsing of brackets (nltk), temporary files and the empty document without a path |
| readwrite/mmax2.py | Mmax, Coref, Spanstring | MMAXDocumentGraph and its helpers; not: MMAXProject (paths), comments among markables, get_potential_markables, writing of MMAX2 files |
| readwrite/exportxml.py | ExportXml | ExportXMLDocumentGraph for a `<text>` element; ExportXMLCorpus: CorpusIter; not: XML parsing, comments inside of a text, ancestors of the text |
| readwrite/decour.py | Decour | DecourDocumentGraph for a `<hearing>` element; not: XML parsing, other children of a turn |
| readwrite/rst/rstlatex.py | RstLatex | all but the file writer; rendering of a tree below a lone N/S node is a parameter |
| readwrite/paulaxml/paula.py | Paula | PaulaDocument (content of all files, DTDs), get_onsets; not: serialisation, human_readable comments, writing of files |
| readwrite/salt/*.py | Salt | reading and writing of elements, SaltDocument, SaltXMIGraph, LinguisticDocument, extract_sentences; not: XML parsing and serialisation, statistics, `__str__`, constructors with other arguments (SaltEdge and TokenNode cannot be constructed directly) |
| readwrite/rst/dis/common.py, distree.py, disfilewriter.py, codra.py (text level); nltk `Tree.fromstring`, `Tree.pformat` | DisText | reading and writing of the text of files without word wrap; not: encoding, temporary files, pictures |
| relabel.py (convert_node_labels_to_integers) | IntLabels | all of it; Python 2's order of mixed IDs, networkx' set_node_attributes |
| readwrite/rst/{stagedp,heilman_sagae_2015,dplp}.py (text level) | ParserText | everything but file access, `json.load` (its result is given) and `eval` (a parameter) |
| corpora.py | Corpora | PCC: files of a document, get_document, document_ids, len, index; not: the file system (lists of files are given), readers (parameters, modelled elsewhere), get_random_document, slices |
| merging.py | MergingCli, CliFiles | everything but argparse, creation of the output directory, printing; writers are parameters, readers are parameters (MergingCli) or the modelled ones (CliFiles, without the list of EDUs in the metadata) |
| mmax2.py (get_potential_markables), discoursegraph.py (get_phrases) | Phrases | all of both |
| tree.py (word_wrap_tree); Python's textwrap (dedent, fill) | WordWrap | all but the regular expression of TextWrapper._split (a parameter) |
| mmax2.py (spanstring2text) | SpanText | all |
| util.py (find_files), corpora.py (PCC.__init__, get_files_by_layer) | FindFiles | all but abspath and expanduser |
| mmax2.py (MMAXProject, file names) | MmaxFiles | all but expanduser and abspath; parsed files instead of bytes |
| others | – | see the rows above; everything not listed is not modelled |
