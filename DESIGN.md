# Formal model of psi-toolkit: design

The source in `/repo` (psi-toolkit, C++) is read as text only.  Nothing in it is
compiled or executed.  The models live in `lean/Verif/<Area>/` and are plain total
Lean 4 functions; each definition cites the file and lines it models.

## Layout of an area

* `Model.lean` – the code, function by function (cites `/repo`); larger areas have several such files.
* `Spec.lean` – what a user expects, stated without the model's helpers.
* `Lemmas*.lean` and others – auxiliary lemmas.
* `Props*.lean` – the property theorems (the ones listed in `MANIFEST.json`, named `C<nn>_…`), each
  followed by an `example` showing its hypotheses are met by a non-trivial case.

A theorem whose name ends in `_partial` proves a part of the property; the comment says what is missing.
A theorem whose name ends in `_false` proves, with a concrete witness, that the code does not have (the
missing part of) the property.

## Conventions

* A byte is a `UInt8` or a `Nat` (`< 256` where it matters); a C++ string is a `List` of bytes.
* C++ exceptions and undefined behaviour are separate outcomes (`Except`/`Option`), never
  silently totalised.
* Fixed-width integers are modelled with wrap-around only where the property is about it;
  elsewhere the bound under which no overflow happens is an explicit hypothesis or stated at the model.
* Scores (`double`) are modelled by an ordered type (`Rat`, `Int`); only comparisons and, in the chart
  parser, sums are used.
* Heap/hash-map/bitset containers are modelled by lists or functions with the same
  observable behaviour; iteration order is modelled where the code makes it observable.

## What is modelled, area by area

| area | code | simplifications, what is left out |
|------|------|------|
| `Quoter` | `common/utt_like_quoter.cpp`, `common/psi_quoter.cpp`, `formats/utt/utt_quoter.cpp`, `formats/bracketing/bracketing-writer/bracketing_quoter.cpp`, `common/escaping.cpp` | complete |
| `Utf8` | `utf8/utf8/core.h`, `utf8/utf8/checked.h`, `utf8/utf8/unchecked.h`, `symbolLength` of `common/string_helpers.cpp` | iterators are lists of the bytes ahead; `replace_invalid` and the iterator adapters are left out |
| `EditDistance` | `common/edit_distance.hpp` | distances are `Nat` |
| `Limit` | `common/limit_checker.{hpp,cpp}` | complete |
| `FileSpec` | `FileFetcher::addParam`, `replaceParams_` (`common/file_fetcher.cpp`) | the search for the file is left out |
| `Glob` | `common/segment_glob.cpp` | pointers are lists; reading past the terminating zero is `none` |
| `PathGlob` | `common/ant_like_path_glob.cpp` | finite directory trees; no `.`/`..` segments, no symbolic links |
| `Cutter` | `common/cutter.{hpp,cpp}` | text is a plain string; the cutter of the derived class is an arbitrary function |
| `StringFrag` | `common/string_frag.{hpp,cpp}` (default build) | a reference is the current value of the string referred to |
| `Tags` | `common/layer_tag_collection.*`, `layer_tag_mask.*`, `layer_tag_manager.*` | the bimap is a list of names |
| `Lattice` | `common/lattice.{hpp,cpp}`: text, vertices, `addEdge`, `addPartitionToEdge`, `discard`, `addSymbols`, edge queries with and without masks, mask indexes, counters, paths, edge sequences, their builder and iterator, `runCutter` (any cutter as a function with a state), the vertex iterator and the sorted edge iterators (any topological order from Boost), `getParent`, `getChildren`, `getEdgeOrigin`, `getPathWithSkipping` | Boost graph as list of edges; `correctionInsert/Erase` are left out |
| `Binary` | reading and writing of integers with `fread`/`fwrite` | little endian |
| `MonotonicVector` | `tools/datastructures/lexica/monotonic_vector.hpp` | template parameters kept |
| `StringVector` | `tools/datastructures/lexica/string_vector.hpp` | `ValueT = unsigned char` |
| `KeyValue` | `tools/datastructures/lexica/perfect_hash_index.*`, `key_value_store.*` | cmph and the fingerprint are parameters |
| `Huffman` | `CanonicalHuffman` (`tools/lemmatizers/lamerlemma/canonical_huffman.hpp`) | heap functions are parameters; saving and loading left out |
| `BitStream` | `BitWrapper` (same file) | iterators are indexes |
| `LemmaCode` | `KLEndEncode`, `KLEndDecode` (`tools/lemmatizers/lamerlemma/utility_functions.cpp`) | the rest of that file is left out |
| `ListCoders` | `VarIntType`, `Simple9` (`tools/translators/bonsai/rules/ListCoders.h`) | the logarithm is exact |
| `Fsa` | `tools/datastructures/psi_query`: `NDFSA`, `DFSA`, `BinDFSA`, membership, traversal, reverse, reachable, prune, epsilon removal, determinization, minimization, intersection, union, concatenation, Kleene operators, packing, incremental construction from a sorted list, perfect hashing (`HashFSA`), enumeration of the language | states are natural numbers (the packed automaton has its 32-bit fields); the unsorted incremental construction is commented out in the code |
| `Server` | `server/server/request_parser.cpp`, `connection.cpp` (reading), `request_handler.cpp`, `mime_types.cpp`, `reply.cpp`, `server/mpfd-parser/*`, `server/psi_server.cpp`, `psi_request_handler.cpp`, `session_manager.cpp`, `session.cpp`, `common/guid_generator.cpp` | one request at a time; files are a function from names to contents; sockets, threads, temporary files and memory management left out |
| `Chart` | `tools/parsers/gobio/parser/agenda_parser.*`, `agenda.hpp`, `simple_cfg_combinator.*`, `chart/chart.tpl` | any agenda policy; the lattice is a list of edges distinct in ends and item; scores are integers |
| `Pipeline` | `framework/auto_completer.cpp`, `aliaser.cpp` | factories and promises are records of what they require, provide and cost; quality and time are rational; option parsing, logging and the creation of processors are left out |
| `Gobio` | `tools/parsers/gobio/rules/compile_gruleexpression.{cpp,tpl}`, `expression_runner.tpl`, `opcodes.hpp`, `compiled_expression.tpl`, `translator/grparser.y` (the trees it makes), `avmatrix/av_matrix.hpp` (get and set), `common/zvalue.hpp` | the stack of visited nodes is recursion; attribute names and symbols are resolved to numbers; scores are rational and numbers are exact; the optimisations after compilation (decompose, denopify, detruify, relocate) are left out |
| `PsiFormat` | `formats/psi/psi_writer/psi_lattice_writer.cpp` (the cells of a row), `formats/psi/psi_reader/psi_lattice_reader.{hpp,cpp}` (grammars, what a row means), `common/aligning_writer_worker.cpp` | which edges are written and in which order, and what the reader does with the lattice, are left out; printing and reading of a double is a parameter; shortening of long text is modelled for ASCII only; a number below 0 as beginning or length is not looked at |
| `Bracket` | `formats/bracketing/bracketing-writer/bracketing_lattice_writer.hpp` (doRun_ from the stored edges on), `bracket_printer.hpp`, `edge_data.hpp` (operator<), `edge_print_data.hpp` | which edges are stored, and the choice of edges when disambiguating, are left out; sets of edges (duplicates collapsed) are not modelled except for their comparison; fields are compared as numbers there; how a score is printed is a parameter |
| `IterWriter` | `common/lattice_iter_writer.cpp`, `common/lattice_writer_output_iterator.cpp`, `formats/simple/simple_lattice_writer_stream_output_iterator.cpp`, `formats/json-simple/json_lattice_writer_output.cpp`, `json_lattice_writer_output_iterator.cpp` | edges are given by what is asked about them (target, tag names, blank, discarded, basic, item); the vertices visited are a parameter; items are their texts in the outputs; streams are strings; JSON grammar without `\\u`, numbers and literals, bytes above 127 taken as they are |
| `Srx` | `tools/segmenters/srx/srx_segmenter.cpp`, `srx_rules.cpp`, `srx_rules.hpp`, `common/escaping.cpp` | the regular expression engine is a parameter (for each position the breaks of the matches that begin there, first the one the engine takes), so that anchors and look-behind at the beginning of a search are not covered; `assert`s; the XML parser and the matching of language patterns (given as a truth value); the cascade attribute; length limits of segments (see `Cutter`) |
| `Annot` | `common/annotation_item.{hpp,cpp}`, `common/annotation_item_manager.{hpp,cpp}`, `common/zvalue.cpp` (`zvalue_to_string`, `itoa`) | values of other kinds (lists, trees); memory of the manager; the hash function of the locale is a parameter; the model of the lattice compares items as wholes |
| `Unumsunt` | `tools/converters/unumsunt/unumsunt_rule.{hpp,cpp}`, `tools/converters/unumsunt/unumsunt.{hpp,cpp}` | the lattice part of `convertTags` (which edges are taken, tags and partitions of the new ones); the parsers of Boost.Spirit are written as functions; sets and maps are lists; the conversion of rules to strings |
| `Md5` | `common/md5.cpp` (all but `operator<<`), `common/file_storage.cpp` (`storeFile` with an extension, `storeFileByMD5`) | recognition of file types, file system errors; `unsigned int` has 32 bits |
| `Symal` | `tools/translators/bonsai/utils/binaries/symal.cpp` (all but reading of the file and the command line) | limits of 400 words (assertions); numbers are unbounded |
| `Morfologik` | `common/morfologik_tags_parser.{hpp,cpp}` | a map is a sorted list of entries; messages of the log are left out |
| `Xml` | `tools/translators/bonsai/utils/binaries/XmlTree.cpp`, `SyntaxTree.cpp` | `npos` is `none`; pointers to nodes are numbers; scores of nodes and messages are left out; strings shorter than 2³¹ |
| `Guess` | `tools/recognizers/langguesser/lang_guesser.{hpp,cpp}`, `bigram_language_model.{hpp,cpp}` | frequencies and distances are rationals instead of doubles; reading of the tables from files and the annotation of lattices are left out |
| `Numconv` | `tools/translators/transferer/numconversion.cpp` (all) | strings as bytes of UTF-8; a read out of bounds is `none`; the comparison in the second loop of `bigger` is of unsigned characters |
| `Lattice/Fix*` | `common/lattice.cpp` 825-905 (`correctionInsert`, `correctionErase`, `correctionReplace`) | an uninitialised variable is `none`, its use `undefined`; results of the lattice operations as in the other Lattice files |
| `Iconv` | `tiniconv/tiniconv.c`, `tiniconv_desc.c`, `encdec/` (ascii, the ISO 8859 and CP125x sets without CP1255 and CP1258, CP866, KOI8, Mac Cyrillic, UCS-2, UTF-7, UTF-8), `common/encoding_converter.cpp` (without `detect`) | CP1255, CP1258, EUC-CN, GBK, CP936, ISO-2022-JP, GB2312 and Big5 are not modelled; the generated single-byte code is modelled as ranges of a table; `abort()` and reading outside the bytes ahead are outcomes; numbers are unbounded where the code has 32 bits (all values stay below 2^32) |
| `Casing` | `utf8case/` (all but the generator script), `common/lemmatizer_annotator.hpp` (`lemmatizeSingleWord`, `WorkerOutputIterator`) | code points as natural numbers; reading past the end is `none`; a text is read before its conversion is written; the lattice under the output iterator is arbitrary. `Casing/Unicode.lean` is data from the Unicode Character Database (UnicodeData.txt restricted to Unicode 6.0, SpecialCasing.txt), used as specification |
| `Lexicon` | `tools/datastructures/lexica/lexicon_base.cpp` (`readPlainText`, `getRecords` and helpers), `tools/lexica/mapper/mapper.cpp` (checks of options, `processEdge` and below), `tools/lexica/bilexicon/bilexicon.cpp` (`parseRecord_`), `common/string_helpers.cpp` (`getLemmaFromLexeme`), `tools/normalizers/simplenorm/simplenorm_normalizer.cpp`, `tools/tokenizers/detok/detok.cpp` | files are byte strings that can be opened; of the lattice only the items of the new edges; the saving and loading of binary lexica are left out; sorting is insertion sort |
| `Zval` | `common/zvalue.hpp`, `common/zvalue.cpp`: hash tables, environments, tables of symbols, putting texts together, vectors, syntactic trees (changing, finding, inheriting, sorting, equivalents); the ranks of an order in `tools/translators/transferer/trules.cpp` | addresses are numbers, hash functions arbitrary; memory management and printing are left out; the environment of a tree is a list of pairs in the order of insertion; indices do not overflow |
| `Dag` | `tools/translators/bonsai/rules/SimpleDAG.cpp`: searching, membership, reversing, determinization, minimization, union; `CompressedDAG.cpp`: hash, unhash, intersect, multihash; `RuleSet.cpp`: pruning of the rules | numbers do not overflow; the compression of the arcs into bit fields is left out; bit sets are the numbers with these bits; the order of arcs with the same symbol after `std::sort` is not used; memory management is left out |
| `Minfsa` | `tools/translators/bonsai/utils/binaries/IncrementalFSA.cpp`, `minfsa.cpp`, `Register.hpp` | numbers do not overflow; the register is a list instead of a hash table; reading lines and the messages are left out |
| `Irstlm` | `tools/translators/bonsai/irstlm/mempool.{h,cpp}`, `htable.{h,cpp}`, `dictionary.{h,cpp}` | addresses are blocks with places; numbers do not overflow (except for the truncation in `cmpdictentry`); the strings of dictionaries are kept in their entries; files are byte strings; the constructor from a file with the header `dict`, statistics, the dictionary upper bound are left out |
| `Puddle` | `tools/parsers/puddle/puddle_util.cpp`, `rule.cpp` (test, apply), `rule_modifier.cpp`, `group_action.cpp` (init, test), `tagset.cpp` (labels, getAttributes), `unify_action.cpp`, `delete_action.cpp`, `lattice_wrapper.cpp` 987–1075 | what is at the vertices of the lattice is given to the actions, matching of regular expressions is given by functions, the order of sets of strings is left out where only membership is claimed; the rule loader, the matcher and the other actions are not modelled |
| `Zlib` | `fex/zlib/crc32.c`, `crc32.h`, `adler32.c`, `inftrees.c`, `inffixed.h`, `inflate.c` (how codes are taken from the input, the head of a dynamic block, commands and blocks, also in inflate_fast and with input in pieces, the output and the window, dictionaries, head and end of gzip files), `inffast.c`, `fex/7z_C/7zCrc.c` | values that stay below 2^32 are 32-bit words; buffers are lists of bytes with an address; the guard against two threads that make the tables is left out; the decoding tables are maps from indices, their numbers are unbounded |
| `Fex` | `fex/fex/Zlib_Inflater.cpp` (begin, fill_buf, the detection in set_mode, read: for compressed files over any decoder), `fex/fex/Gzip_Reader.cpp` (open, calc_size) | the file is a list of bytes, reading does not fail, numbers do not overflow |


## The properties

Status, theorems (namespace `Verif.<Area>`) and method.  The axioms each theorem depends on follow its
name: p = `propext`, c = `Classical.choice`, q = `Quot.sound`, – = none.

### C01 Lattice text is append-only and edge text is a fixed substring — proved

After any sequence of lattice operations, text read earlier is still a prefix of getAllText(), and getEdgeText() of an edge that runs between two text positions keeps returning exactly the substring between its source and target positions, no matter what is appended or annotated later.

*Method.* Lattice state machine; every call is a sequence of small steps (`Micro`) that preserve one invariant (`Inv`); induction over histories.

*Result.* For all histories of modelled calls: the text only grows at its end, and the text of every edge between text positions is and stays the substring between its ends.

*Theorems.* `Lattice.C01_text_append_only` (cqp), `Lattice.C01_edge_text` (cqp)

### C02 No loops or backward edges; a rejected addEdge has no effect — partial

addEdge never creates an edge from a vertex to itself nor, between two text positions, an edge pointing backwards; such a call is rejected with an exception, and after any rejected call every observation of the lattice (text, edges, tags, scores, partitions, counters) is unchanged.

*Method.* Case analysis of `addEdge` with its exceptions; `SameView` compares everything that can be observed.

*Result.* No loops/backward edges and rejection of such calls without effect are proved. That any rejected call leaves every observation unchanged is proved unless the UTF-8 library throws; C02_rejected_false proves it fails of the code there (the counter is already incremented).

*Theorems.* `Lattice.C02_no_loops` (cqp), `Lattice.C02_loop_rejected` (qp), `Lattice.C02_backward_rejected` (cqp), `Lattice.C02_rejected_unchanged_partial` (cqp), `Lattice.C02_rejected_false` (cqp)

### C03 Edge annotations accumulate monotonically — proved

Once an edge exists, its endpoints and annotation item never change, its set of layer tags only grows, its score is the maximum of the scores of its partitions, and its list of partitions is only ever extended at the end.

*Method.* The relation "edges only grow" is preserved by every small step (induction over histories).

*Result.* Explicit edges: endpoints and item fixed, tags grow, partitions extended at the end, score is the largest partition score. Implicit symbol edges: everything fixed, score 0, no partitions. For all histories.

*Theorems.* `Lattice.C03_edges_accumulate` (cqp), `Lattice.C03_symbol_edges_fixed` (cqp)

### C04 Equal annotations are merged, not duplicated — partial

At any time there is at most one edge for given endpoints, annotation item and plane; adding it again returns an edge already present and extends it instead of creating a second one, so no query ever reports the same annotation twice.

*Method.* Uniqueness is part of the invariant for keys that are never those of an implicit edge; witness otherwise.

*Result.* Uniqueness and merging are proved for keys (endpoints, item, plane) whose symbol edge is never involved (Ordinary key). C04_symbol_twice_false: a symbol edge annotated twice is duplicated; C04_reported_item_false: re-adding with the item the lattice itself reports also duplicates.

*Theorems.* `Lattice.C04_no_duplicates_partial` (cqp), `Lattice.C04_add_again_partial` (cqp), `Lattice.C04_add_again_succeeds_partial` (cqp), `Lattice.C04_symbol_twice_false` (cqp), `Lattice.C04_reported_item_false` (cqp)

### C05 Mask queries return exactly the matching edges — partial

outEdges(v, mask) and inEdges(v, mask) return exactly the edges leaving/entering v whose current layer tags match the mask, whether or not a query with this mask was made before.

*Method.* Invariant for the per-mask index lists; history predicates describe when an index is stale.

*Result.* Soundness is proved for all histories. Exactness is proved if no present edge has come to match the mask since the mask was first queried and no alternative is empty; C05_stale_index_false and C05_empty_alternative_false prove exactness fails of the code otherwise.

*Theorems.* `Lattice.C05_sound` (cqp), `Lattice.C05_exact_partial` (cqp), `Lattice.C05_stale_index_false` (cqp), `Lattice.C05_empty_alternative_false` (cqp)

### C06 Out-edges and in-edges agree — partial

An edge is among all out-edges of its source vertex exactly when it is among all in-edges of its target vertex, and source/target lookups agree with the vertex it was found at.

*Method.* Both lists are characterised by the set of edges; the backward scan needs a character boundary.

*Result.* Explicit edges agree unconditionally; implicit symbol edges agree between character boundaries. C06_inside_character_false proves that it fails of the code for a symbol edge starting inside a character.

*Theorems.* `Lattice.C06_edges_agree` (qp), `Lattice.C06_agree_partial` (cqp), `Lattice.C06_inside_character_false` (cqp)

### C07 Symbol edges tile well-formed text — proved

After appending well-formed UTF-8 text with symbols, following the symbol edge from position 0 visits exactly the characters of the text in order, one edge per character, ends at the last vertex, and concatenating the edge texts gives back the text.

*Method.* Induction over the characters of the text.

*Result.* Proved for every list of well-formed strings appended to a new lattice. Beforehand getLastVertex is modelled for lattices without edges leaving the end of the text.

*Theorems.* `Lattice.C07_symbols_tile` (cqp)

### C08 Discarding is permanent and local — partial

After discard(e), isDiscarded(e) holds forever, and no other edge changes its tags, score or partitions; edges never discarded never report being discarded.

*Method.* Corollary of the growth relation plus locality of one step.

*Result.* Permanence and locality are proved for explicit edges, and never-discarded edges never report it for all edges. C08_symbol_edge_false: discarding an implicit symbol edge leaves the handle undiscarded.

*Theorems.* `Lattice.C08_discard_partial` (cqp), `Lattice.C08_never_discarded` (cqp), `Lattice.C08_symbol_edge_false` (cqp)

### C09 countEdges counts the edges between two vertices — partial

countEdges(u, v) equals the number of distinct edges from u to v (the chart parser relies on the count growing exactly when a new edge has been created).

*Method.* Counter invariant: number of edges plus number of re-added symbol edges.

*Result.* The counter is at least the number of edges for all histories, and exact if no symbol edge is re-added (SymbolOnce); C09_symbol_edge_false gives the history where it is too large.

*Theorems.* `Lattice.C09_at_least` (cqp), `Lattice.C09_grows_iff_new_partial` (cqp), `Lattice.C09_exact_partial` (cqp), `Lattice.C09_symbol_edge_false` (cqp)

### C10 Path extraction terminates and yields a chain — proved

In a lattice whose edges connect text positions, getPath from a vertex terminates, and the edges it returns form a contiguous chain starting at the given vertex, ending at the vertex it reports, all matching the mask.

*Method.* Termination measure: distance to the end of the text.

*Result.* Proved for getPath, for every reachable lattice without loose vertices, every proper mask and every vertex; the loop ends within |text|+1 rounds. getPathWithSkipping is not modelled.

*Theorems.* `Lattice.C10_path` (cqp), `Lattice.C10_path_last` (cqp)

### C11 An edge sequence lists the edges put into it — partial

Iterating the sequence produced by EdgeSequence::Builder yields exactly the edges added to the builder, in the order in which they were added.

*Method.* The builder's state is described by the list of usages added so far.

*Result.* Proved unless a hidden symbol edge at position 0 is added after another edge (in particular for every chain in a lattice without loose vertices); C11_return_to_zero_false proves that it fails of the code otherwise.

*Theorems.* `Lattice.C11_lists_edges_partial` (cqp), `Lattice.C11_return_to_zero_false` (cqp)

### C12 Layer-tag masks mean what they say — proved

A mask written as alternatives (';') of conjunctions (',') matches a tag set exactly when all the tags of at least one alternative are present; the any-mask matches everything, the none-mask nothing; hence enlarging a tag set never makes a matching mask stop matching.

*Method.* Refinement of bit sets to sets of names.

*Result.* Meaning of masks from name lists and from written specifications, any/none, monotone, language masks, equal masks. Finding: the query isNone() changes a mask of empty collections (C12_isNone_witness).

*Theorems.* `Tags.C12_matches` (cqp), `Tags.C12_specification` (cqp), `Tags.C12_any_none` (qp), `Tags.C12_monotone` (qp), `Tags.C12_language` (cqp), `Tags.C12_equal_masks` (qp), `Tags.C12_isNone_effect` (qp), `Tags.C12_isNone_witness` (qp)

### C13 Tag names survive the round trip through tag sets — proved

Creating a tag collection from a list of names and asking for its names returns exactly the distinct names given, sorted, whatever other tags were registered before, as long as at most 64 distinct tags are in use.

*Method.* Invariant of the manager: names distinct, indexes dense.

*Result.* Names round trip at any later time; capacity 64; comma specifications; isThere.

*Theorems.* `Tags.C13_names` (cqp), `Tags.C13_capacity` (cqp), `Tags.C13_specification` (p), `Tags.C13_isThere` (cqp)

### C14 Planes partition the edges — proved

areInTheSamePlane is an equivalence relation on tag collections, two collections are in the same plane exactly when they contain the same '!'-tags, and adding ordinary tags never moves a collection to another plane.

*Method.* Equality of filtered bit sets, translated to names.

*Result.* Equivalence, same plane iff same '!'-tags for all collections made with the manager, ordinary tags do not matter.

*Theorems.* `Tags.C14_equivalence` (qp), `Tags.C14_same_plane` (cqp), `Tags.C14_ordinary_tags` (cqp)

### C15 PSI/UTT quoting is lossless — proved

unescape(escape(s)) = s for every byte string, for the PSI quoter and the UTT quoter; hence distinct strings have distinct quoted forms.

*Method.* Induction over the string; inverse of a prefix code.

*Result.* Round trip for every byte string and every set of additional specials without the letters n, t, r (needed: C15_hypothesis_needed); instances for PSI and UTT quoters; unescape is exact w.r.t. the quoting grammar.

*Theorems.* `Quoter.C15_unescape_escape` (p), `Quoter.C15_psi` (p), `Quoter.C15_utt` (p), `Quoter.C15_injective` (p), `Quoter.C15_hypothesis_needed` (–), `Quoter.C15_unescape_exact` (cqp)

### C16 Quoted text cannot break the column format — proved

The quoted form of any string contains no space, tab, newline or carriage return (and, in PSI files, no unescaped '#'), so a quoted field is always read back as a single field; unquoting either succeeds or reports an error exactly for malformed escape sequences.

*Method.* Induction over the string.

*Result.* No separator in quoted text; '*' and additional specials always escaped; isEscaped is the parity test; malformed input reported exactly (C15_unescape_exact).

*Theorems.* `Quoter.C16_no_separator` (qp), `Quoter.C16_nonempty` (p), `Quoter.C16_isEscaped_exact` (cqp), `Quoter.C16_specials_escaped` (cqp), `Quoter.C16_psi_hash` (cqp)

### C17 Bracketing quoting is lossless — proved

For the bracketing writer's quoter, unescape(escape(s)) = s for every byte string and the escaped text has no line breaks or tabs.

*Method.* Induction over the string.

*Result.* Round trip, injectivity, single line, and throws exactly on an odd run of trailing backslashes. Unknown escapes are silently dropped by the code (modelled).

*Theorems.* `Quoter.C17_unescape_escape` (p), `Quoter.C17_injective` (p), `Quoter.C17_single_line` (qp), `Quoter.C17_throws_iff` (cqp)

### C18 StringFrag behaves like the string it denotes — partial

Every StringFrag operation (substring, append, comparison, find, length, concatenation) gives the same result as the operation on the plain string it denotes, independently of how the fragment is stored.

*Method.* Refinement to plain strings over sequences of operations.

*Result.* Full claim false: C18_append_false (non-adjacent append replaces the receiver), C18_find_false (looks past the end), C18_sub_false (fragment of a stored fragment). Proved: str/length/[]/substr/data for every other sequence of operations incl. growth of the text; find right when the character occurs.

*Theorems.* `StringFrag.C18_denotes_partial` (cqp), `StringFrag.C18_find_partial` (cqp), `StringFrag.C18_append_false` (p), `StringFrag.C18_find_false` (p), `StringFrag.C18_sub_false` (p)

### C19 Length-limited cutting loses nothing — proved

When segments are cut under a hard and a soft length limit, the produced pieces concatenate to the segment, no piece is longer than the hard limit, cut points fall on character boundaries of well-formed text, and cutting terminates.

*Method.* Loop invariant and well-founded recursion on the rest of the text.

*Result.* Fragments concatenate, well-formed, within the hard limit, terminates; error only if some character is longer than the hard limit; soft-limit behaviour. The underlying cutter is an arbitrary function advancing to character boundaries; text is a plain std::string.

*Theorems.* `Cutter.C19_fragment` (cqp), `Cutter.C19_run` (cqp), `Cutter.C19_no_error` (cqp), `Cutter.C19_cuts` (cqp), `Cutter.C19_soft` (cqp)

### C20 UTF-8 encoding and decoding are inverse — proved

Decoding the encoding of any valid code point returns the code point and consumes exactly the bytes written; the checked decoder accepts exactly the shortest-form encodings of valid code points.

*Method.* Bit arithmetic as division and remainder; case analysis by length.

*Result.* append writes the standard encoding; next/prior/validate_next decode it exactly; validate_next accepts exactly shortest-form encodings of scalar values.

*Theorems.* `Utf8.C20_append_is_standard` (cqp), `Utf8.C20_next_append` (cqp), `Utf8.C20_validate_exact` (cqp), `Utf8.C20_next_of_validate` (cqp), `Utf8.C20_prior_append` (cqp)

### C21 UTF-8 validity is closed under splitting at character boundaries — proved

A byte string is accepted by is_valid exactly when it is a concatenation of encodings of valid code points; stepping with the library visits each encoded code point once.

*Method.* Induction over the list of code points.

*Result.* is_valid/find_invalid exact; unique reading; utf8to32/utf32to8 round trip, distance, advance, symbolLength.

*Theorems.* `Utf8.C21_reading_unique` (cqp), `Utf8.C21_find_invalid_exact` (cqp), `Utf8.C21_isValid_iff` (cqp), `Utf8.C21_split` (cqp), `Utf8.C21_utf8to32` (cqp), `Utf8.C21_utf32to8` (cqp), `Utf8.C21_roundtrip` (cqp), `Utf8.C21_distance` (cqp), `Utf8.C21_advance` (cqp), `Utf8.C21_symbolLength` (cqp), `Utf8.C21_symbolLength_all` (p)

### C22 Segment globs match the intended names — partial

A glob matches a file name exactly when the name can be split so that literals match themselves, '?' matches one character and '*' any run of characters.

*Method.* Refinement of the two-pointer matcher to a splitting relation.

*Result.* The full claim is false of the code (C22_false: '*??ab' matches a euro sign followed by 'ab'). Proved: no intended match is missed, no out-of-bounds read on well-formed names, exact for globs without '*?' and for ASCII names.

*Theorems.* `Glob.C22_complete_partial` (cqp), `Glob.C22_defined` (cqp), `Glob.C22_exact_partial` (cqp), `Glob.C22_exact_ascii_partial` (cqp), `Glob.C22_false` (cqp)

### C23 Path globs treat '**' as any number of directories — proved

An Ant-like path glob matches a path exactly when its segments can be matched in order with '**' standing for zero or more whole path segments.

*Method.* Induction over the directory tree and the list of segments.

*Result.* Exact set of files found in any finite directory tree without duplicate names; '**' in last position requires at least one name (files below). '.'/'..' and symbolic links are not modelled.

*Theorems.* `PathGlob.C23_exact` (qp), `PathGlob.C23_code` (qp), `PathGlob.C23_all_below` (qp)

### C24 Edit distance is the Levenshtein distance — partial

levenshteinDistance(a, b) is the length of a shortest sequence of single-symbol insertions, deletions and replacements turning a into b; hence it is zero only for equal strings, symmetric and satisfies the triangle inequality; the suggested command is one of minimal distance.

*Method.* Row invariant of the dynamic programme; refinement to edit scripts.

*Result.* Distance, metric laws proved in full. The suggestion is minimal when some candidate is closer than 99 edits (C24_most_similar_partial); C24_suggestion_false: otherwise the code suggests the empty string.

*Theorems.* `EditDistance.C24_is_distance` (qp), `EditDistance.C24_zero_iff` (qp), `EditDistance.C24_symm` (qp), `EditDistance.C24_triangle` (qp), `EditDistance.C24_most_similar_partial` (qp), `EditDistance.C24_suggestion_false` (qp)

### C25 Limit checker applies the right limit — proved

isAllowed(argument, value) compares the value with the limit of the smallest declared bound not below the argument, or with the absolute limit, independently of the order in which the limits were added and of earlier queries.

*Method.* Invariant of the lazily sorted list.

*Result.* Holds for all declaration sequences and queries; with equal bounds the first declared limit wins (stated).

*Theorems.* `Limit.C25_isAllowed` (cqp), `Limit.C25_default` (p), `Limit.C25_order_irrelevant` (cqp)

### C26 Path parameters are substituted exactly — proved

In a file specification every %NAME% is replaced by the value of the parameter and everything else is copied; an unknown name or an unbalanced '%' is an error; substituted values are never expanded again.

*Method.* Refinement to a tokenised substitution.

*Result.* Result, unknown parameter, unbalanced percent sign, parameter overriding.

*Theorems.* `FileSpec.C26_result` (cqp), `FileSpec.C26_unknown` (cqp), `FileSpec.C26_unbalanced` (cqp), `FileSpec.C26_addParam` (cqp)

### C27 Compressed position vector returns what was stored — proved

After pushing any non-decreasing sequence of positions into a MonotonicVector, at(i) returns the i-th pushed value, for gaps of any size.

*Method.* Representation invariant over push sequences.

*Result.* Holds for every sequence of positions in range (not only non-decreasing ones), for every instance of the template whose LenT is not wider than PosT; save/load round trip included.

*Theorems.* `MonotonicVector.C27_at` (cqp), `MonotonicVector.C27_back` (cqp), `MonotonicVector.C27_save_load` (cqp)

### C28 String vector is an indexed list of strings — partial

After any sequence of push_back calls, element i of a StringVector is the i-th pushed string, size() is their number, and find() locates a string that was pushed; a string that was not pushed is reported as missing.

*Method.* Representation invariant; binary search invariant.

*Result.* Elements, size, sorted flag, find in sorted mode for pushed strings and find in unsorted mode for ASCII strings are proved. The rest of the claim is false of the code: sorted find reports a missing string at an existing index, unsorted find misses every non-ASCII string (C28_find_false, C28_nonascii_false).

*Theorems.* `StringVector.C28_elements` (cqp), `StringVector.C28_sorted` (cqp), `StringVector.C28_find_sorted` (cqp), `StringVector.C28_find_unsorted_partial` (cqp), `StringVector.C28_nonascii_false` (cqp), `StringVector.C28_find_false` (cqp), `StringVector.C28_save_load` (cqp)

### C29 Binary lexicon returns the value stored under a key — proved

A key-value store built from distinct keys returns for each key exactly its value, whatever minimal perfect hash the library generates, and for other keys returns nothing unless the fingerprints collide.

*Method.* The table is a permutation given by the perfect hash.

*Result.* For every minimal perfect hash and every fingerprint function; keys are C strings (cut at NUL). Save/load of the part after cmph_dump included.

*Theorems.* `KeyValue.C29_get` (cqp), `KeyValue.C29_other_keys` (cqp), `KeyValue.C29_save_load` (cqp)

### C30 Huffman coding is lossless — partial

Whatever the symbol frequencies, the code lengths computed form a complete prefix code and decoding the bits written for a sequence of symbols returns that sequence, consuming exactly the bits written.

*Method.* Kraft sum invariant of the code lengths, canonical code arithmetic, round trip.

*Result.* Full claim false only beyond practical sizes: C30_shift_false (66 symbols with Fibonacci frequencies give a 65-bit code; the shift is undefined). Proved for every standard heap: completeness for up to 65536 symbols with any 64-bit frequencies and for any number of symbols with positive frequencies; lossless whenever frequencies are positive and sum to less than 44945570212853, and whenever no code exceeds 64 bits. Save/Load of the coder is not modelled.

*Theorems.* `Huffman.C30_complete` (cqp), `Huffman.C30_complete_any` (cqp), `Huffman.C30_prefix_free_partial` (cqp), `Huffman.C30_lossless_partial` (cqp), `Huffman.C30_lossless` (cqp), `Huffman.C30_shift_false` (qp)

### C31 Bit stream wrapper is lossless — partial

Bits written one by one through the bit wrapper are read back in the same order from the stored bytes, also after seeking to a remembered bit position.

*Method.* The bit string written is an invariant of the wrapper.

*Result.* Full claim false: Seek(0), the position told at the start, reads before the first element (C31_seek_zero_false). Proved for all bit strings: what is written, what is read, round trip, Seek to every position but 0 from any state, Reset.

*Theorems.* `BitStream.C31_put` (qp), `BitStream.C31_read` (cqp), `BitStream.C31_roundtrip` (cqp), `BitStream.C31_seek_partial` (cqp), `BitStream.C31_tell_from_end` (cqp), `BitStream.C31_seek_from_end_partial` (cqp), `BitStream.C31_reset` (cqp), `BitStream.C31_seek_zero_false` (qp)

### C32 Lemma difference codes decode to the lemma — partial

Decoding the prefix/suffix difference code of a (form, lemma) pair with the same form returns the lemma.

*Method.* Arithmetic on the two cut lengths.

*Result.* Full claim false: with more than 62 characters to cut at either end the code does not restore the lemma (C32_false). C32_exact gives the exact condition; C32_short_partial: every form of at most 62 bytes.

*Theorems.* `LemmaCode.C32_code` (qp), `LemmaCode.C32_exact` (cqp), `LemmaCode.C32_short_partial` (cqp), `LemmaCode.C32_false` (p)

### C33 Variable-length integer coding is lossless — proved

Encoding a list of integers with VarInt and decoding gives the list back for every word size used, and DecodeAndSum returns the sum of the first n numbers.

*Method.* Round trip by induction over words.

*Result.* For every payload size s>0 (7, 15, 31 in the code) and every list of 64-bit numbers; DecodeAndSum sums in 64 bits and leaves the iterator behind the numbers read.

*Theorems.* `ListCoders.C33_roundtrip` (cqp), `ListCoders.C33_words` (cqp), `ListCoders.C33_sum` (cqp)

### C34 Simple9 coding is lossless — partial

Encoding a list of numbers below 2^28 with Simple9 and decoding gives the list back, and DecodeAndSum over the encoded words returns the sum of the first n numbers.

*Method.* Round trip by packing layout.

*Result.* Full claim false: the number 0 makes Encode divide by zero (C34_zero_false). C34_defined: Encode is defined exactly for numbers 1..2^28-1; for these decoding is exact and DecodeAndSum returns the sum of the first n numbers. ceil(log(x+1)/log 2) is taken to be exact.

*Theorems.* `ListCoders.C34_defined` (cqp), `ListCoders.C34_roundtrip_partial` (cqp), `ListCoders.C34_sum_partial` (cqp), `ListCoders.C34_zero_false` (cqp)

### C35 Automaton transformations preserve the language — proved

Removing epsilon transitions, determinizing, trimming and minimizing an automaton do not change the set of words it accepts, and reversing it reverses exactly the accepted words.

*Method.* One theorem about the generic traversal, then language equations for each instance.

*Result.* In (membership test), reverse, reachable, prune, epsRemove, determinize and minimize; besides the language: reachability, usefulness, determinism, absence of epsilon arcs, and minimality of the minimized automaton (no deterministic automaton for the language has fewer states).

*Theorems.* `Fsa.C35_in` (cqp), `Fsa.C35_in_lang` (cqp), `Fsa.C35_reverse` (cqp), `Fsa.C35_reachable` (cqp), `Fsa.C35_prune` (cqp), `Fsa.C35_epsRemove` (cqp), `Fsa.C35_determinize` (cqp), `Fsa.C35_minimize` (cqp)

### C36 Regular operations compute the documented languages — partial

unify, concatenate, kleene_option, kleene_plus and kleene_star turn automata for L (and M) into automata for L∪M, L·M, L∪{empty}, L+ and L*.

*Method.* Path decomposition in the combined automaton.

*Result.* unify and kleene_plus are proved in full. kleene_option and kleene_star lack a transition from the new start to the new end state, so the empty word is not added: proved for all other words, with a counterexample for the empty word. concatenate is proved when the first automaton has an end state; otherwise the second automaton's start states stay start states (counterexample).

*Theorems.* `Fsa.C36_unify` (cqp), `Fsa.C36_kleenePlus` (cqp), `Fsa.C36_kleeneOption_partial` (cqp), `Fsa.C36_kleeneStar_partial` (cqp), `Fsa.C36_option_false` (cqp), `Fsa.C36_star_false` (cqp), `Fsa.C36_concatenate_partial` (cqp), `Fsa.C36_concatenate_false` (cqp)

### C37 Intersection accepts the common words — partial

intersect(a, b) accepts exactly the words accepted by both automata (epsilon transitions and the ANY symbol included when enabled).

*Method.* Product traversal with epsilon closures.

*Result.* Exact and deterministic results are proved where every state's final flag agrees with its epsilon closure, both automata have the same start states, and ANY does not meet EPS. In general false of the code: the start states of the first automaton are used for both, the final states ignore the epsilon closure, and ANY is matched against EPS; each has a witness theorem.

*Theorems.* `Fsa.C37_sound_partial` (cqp), `Fsa.C37_exact_partial` (cqp), `Fsa.C37_plain_partial` (cqp), `Fsa.C37_deterministic_partial` (cqp), `Fsa.C37_starts_false` (cqp), `Fsa.C37_ends_false` (cqp), `Fsa.C37_any_false` (cqp)

### C38 Packed automaton behaves like the abstract one — partial

The binary automaton (arcs of all states in one array, final flag packed in the offset) answers every query like an automaton with one arc set per state, after any sequence of state and arc additions, final-flag changes and deletions of the last state.

*Method.* Refinement of the packed arrays to a list of states.

*Result.* Proved for every sequence of valid operations with fewer than 2^31 arcs; size and end states without further conditions, arcs, transitions, membership and epsilon closure for automata with at least one state. False of the code for the automaton without states (undefined access) and when the number of arcs reaches 2^31; both have witness theorems.

*Theorems.* `Fsa.C38_states` (cqp), `Fsa.C38_arcs_partial` (cqp), `Fsa.C38_empty_false` (qp), `Fsa.C38_full_false` (qp), `Fsa.C38_delta_partial` (cqp), `Fsa.C38_in_partial` (cqp), `Fsa.C38_closure_partial` (cqp)

### C39 Incremental construction accepts exactly the word list — partial

Building an automaton incrementally from a sorted word list accepts exactly the words of the list.

*Method.* Register invariant (no two registered states equivalent) along the sorted list; simulation for the packed automaton.

*Result.* Language and minimality proved for the reference and the packed automaton for every sorted list with at least one non-empty word and every hash function (packed: fewer than 2^31 symbols in all). False of the code for lists without a non-empty word (last arc of a state without arcs is read), witness theorem.

*Theorems.* `Fsa.C39_dfsa_partial` (cqp), `Fsa.C39_bin_partial` (cqp), `Fsa.C39_minimal_partial` (cqp), `Fsa.C39_empty_false` (qp), `Fsa.C39_unsorted_false` (qp)

### C40 HTTP parsing does not depend on packet boundaries — proved

Feeding the request parser a byte stream in any division into chunks gives the same verdict, the same consumed length and the same request.

*Method.* The parser is a fold over bytes.

*Result.* The parser state after any chunks equals the state after the joined stream; verdict, consumed length and request agree.

*Theorems.* `Server.C40_chunks` (p), `Server.C40_same` (p), `Server.C40_prefix` (p)

### C41 The request body is delivered completely — partial

When a POST request announces n bytes of content, the parser completes exactly after n body bytes and the request's post data is these n bytes.

*Method.* Exact consumption of head and body.

*Result.* Proved for plain bodies without line ends of positive length, and for multipart bodies with the last byte missing. Negations proved: multipart bodies lose the last byte, line ends in plain bodies are refused, an empty body waits for a byte.

*Theorems.* `Server.C41_plain_partial` (cqp), `Server.C41_multipart_partial` (cqp), `Server.C41_multipart_false` (cqp), `Server.C41_lines_false` (cqp), `Server.C41_empty_false` (cqp)

### C42 The file server never leaves its document root — proved

A request is answered with a file only if the decoded path starts with '/' and contains no '..'; URL decoding inverts percent-encoding.

*Method.* Lexical resolution of paths; decoding is inverse to encoding.

*Result.* Non-interference: the answer depends only on files inside the root (lexical path resolution, no symbolic links). urlDecode inverts percent encoding; C42_decode_false shows it also accepts strings that are no encoding.

*Theorems.* `Server.C42_decode` (qp), `Server.C42_decode_false` (p), `Server.C42_root` (cqp), `Server.C42_path` (cqp), `Server.C42_refused` (cqp), `Server.C42_length` (cqp)

### C43 Form upload parsing does not depend on packet boundaries — partial

Feeding a multipart form body to the form parser in any chunks yields the same fields with the same contents as feeding it at once.

*Method.* Confluence of chunked processing: finished parts are independent of how the bytes were cut.

*Result.* Proved for files (memory and disk storage) and for all else up to the contents of text fields; C43_text_false shows that a text field fed in pieces keeps only the last piece.

*Theorems.* `Server.Mpfd.C43_files_partial` (cqp), `Server.Mpfd.C43_defined` (cqp), `Server.Mpfd.C43_text_false` (cqp)

### C44 The chart parser finds exactly the derivable constituents — partial

After running the agenda parser, the chart holds an edge of category A from i to j exactly when A is derivable over that span from the initial edges by the grammar's unary and binary rules, whatever order the agenda serves edges in.

*Method.* Worklist invariant: marked edges are closed under the rules; every live edge is on the agenda or marked; measure for termination.

*Result.* Agenda parser of the gobio parser with any agenda policy. Soundness and termination hold for every grammar, chart, limit and policy; without limits the chart is exactly the set of derivable constituents in a tokenised text with single blanks (C44_exact_partial) and does not depend on the order (C44_order_partial). False with two blanks side by side (C44_blanks_false) and where a hidden edge has the item of a constituent (C44_hidden_false). C44_cfg_partial: a rule of the grammar files joins exactly the constituents it names.

*Theorems.* `Chart.C44_sound` (cqp), `Chart.C44_complete` (cqp), `Chart.C44_exact_partial` (cqp), `Chart.C44_cfg_partial` (cqp), `Chart.C44_order_partial` (cqp), `Chart.C44_ends` (cqp), `Chart.C44_blanks_false` (qp), `Chart.C44_hidden_false` (qp)

### C45 UTF-16 conversion round trip — proved

utf8to16 of a well-formed UTF-8 string produces exactly the UTF-16 code units of its code points (surrogate pairs above 0xFFFF), and utf16to8 turns them back into the original bytes.

*Method.* Round trip by induction over code points.

*Result.* unchecked utf8to16/utf16to8 on well-formed input.

*Theorems.* `Utf8.C45_units` (cqp), `Utf8.C45_roundtrip` (cqp)

### C46 A well-formed HTTP request is parsed into its parts — partial

A request head written from a method, a URI, a version and headers is accepted by the request parser exactly at its last byte, with the same method, URI, version and headers; parsing a stream whose numbers stay short is always defined.

*Method.* Round trip for printed request heads; interval bounds for definedness. The converse by an invariant that says, for each state of the parser, what text has been read.

*Result.* Round trip proved for every well-formed head and definedness for streams with fewer than ten digits; C46_overflow_false shows that longer version numbers overflow an int. C46_only is the converse: whatever is accepted is a start line, headers (possibly folded), an empty line and a body of the announced length.

*Theorems.* `Server.C46_get` (cqp), `Server.C46_overflow_false` (p), `Server.C46_only` (cqp), `Server.C46_defined` (cqp)

### C48 A form upload is read back — proved

A multipart form written from a list of text fields and files is read back by the form parser: every name gives the last part of that name with its content, file name and type, and no other field appears.

*Method.* Round trip for printed forms.

*Result.* The conditions on names and types are explicit; C48_name_false and C48_type_false show what happens outside them.

*Theorems.* `Server.Mpfd.C48_form` (cqp), `Server.Mpfd.C48_name_false` (cqp), `Server.Mpfd.C48_type_false` (cqp)

### C49 Huffman code is optimal — proved

For every table of 2 to 65536 distinct symbols whose frequencies sum up to less than 2^64, the code lengths computed by CanonicalHuffman have the smallest possible frequency-weighted sum among all prefix-free codes for these symbols, whatever the order in which the heap returns elements of equal weight; hence a text whose symbol counts are the frequencies is written in as few bits as any prefix-free code needs.

*Method.* Exchange argument (swapping leaves) over Huffman trees; refinement to the computed lengths.

*Result.* C49_optimal and C49_text carry the hypothesis that no code is longer than 64 bits; longer codes are undefined behaviour in the code itself (see C30).

*Theorems.* `Huffman.C49_lengths` (cqp), `Huffman.C49_optimal` (cqp), `Huffman.C49_text` (cqp)

### C47 Form data decoding — partial

PsiServer::parseNamesAndValues splits a form body name1=value1&name2=value2&... at '&' and '=' and url-decodes both parts, so every list of names and values encoded by a browser (with non-empty names) is recovered; the function terminates on every body.

*Method.* Exact description of the scanning loop; termination decided by the positions of '&' and '='.

*Result.* Values are decoded and the fields come in order (C47_fields_partial), the last value of a name counts (C47_stored). Missing because false of the code: names are not decoded; parts without '=' are not fields; the loop runs for ever exactly if there is an '&' and no '=' after the last one (C47_ends); '%' without a number repeats the byte before or is undefined.

*Theorems.* `Server.Site.C47_ends` (cqp), `Server.Site.C47_rounds` (cqp), `Server.Site.C47_ends_false` (cqp), `Server.Site.C47_fields_partial` (cqp), `Server.Site.C47_stored` (p), `Server.Site.C47_names_false` (cqp), `Server.Site.C47_no_value_false` (cqp), `Server.Site.C47_percent_false` (cqp)

### C50 Generated text in pages — proved

PsiServer::include replaces every <!--#psis code --> of a page by the text of the generator registered for the code (by nothing if there is none), calls each generator once in the order of the places, changes nothing else, does not search the generated texts, always terminates, and the Content-Length of the answer is the length of the resulting page.

*Method.* Induction over the places of the page.

*Result.* C50_filled for every page whose places have the form <!--#psis code -->. C50_code_false shows what happens without the blank before -->. The registered functions may read and change the data of the session only.

*Theorems.* `Server.Site.C50_filled` (cqp), `Server.Site.C50_unchanged` (cqp), `Server.Site.C50_code_false` (cqp), `Server.Site.C50_length` (cqp)

### C51 Sessions are kept apart — partial

A request that carries the session cookie given out earlier is answered from, and changes, the data of that session only; a request without a known session gets a fresh id, empty data and a cookie; so in every sequence of requests the answers a client gets are those it would get if the other clients were not there.

*Method.* Invariant of the session map over sequences of requests.

*Result.* C51_isolated, C51_new and C51_known hold for up to 9999 requests, one at a time. Missing because false of the code: after 10000 ids the number in the id repeats (C51_reuse_false); cookies ending in the bare word PSISESSIONID throw an exception nobody catches (C51_crash_false). The shared currentSessionId_ of several threads is not modelled.

*Theorems.* `Server.Site.C51_cookie` (cqp), `Server.Site.C51_no_cookie` (cqp), `Server.Site.C51_crash_false` (cqp), `Server.Site.C51_ids` (cqp), `Server.Site.C51_isolated` (cqp), `Server.Site.C51_new` (cqp), `Server.Site.C51_known` (cqp), `Server.Site.C51_reuse_false` (cqp)

### C52 An added edge is the annotation that was asked for — partial

When addEdge (or addPartitionToEdge, discard) returns an edge, that edge is in the lattice with the requested ends and annotation item, at least the requested tags and score, exactly the requested plane tags (or, if none were requested, those of the parts), and its newest partition is the requested one.

*Method.* Case analysis of the outcomes of `addEdge` on top of the invariant.

*Result.* C52_added_partial covers every edge stored in the graph (new, merged, promoted); C52_implicit says when an edge is stored implicitly. Implicit symbol edges do not keep item and score (C52_implicit_false).

*Theorems.* `Lattice.C52_added_partial` (cqp), `Lattice.C52_implicit` (cqp), `Lattice.C52_implicit_false` (cqp)

### C53 Perfect hashing numbers the dictionary words by their order — partial

For an acyclic deterministic automaton the HashFSA numbers are a bijection: size is the number of accepted words, hash maps the word at position i of the sorted list of accepted words to i, unhash maps i back to the word, and hash of a word that is not accepted is size.

*Method.* Words of a ranked automaton enumerated by recursion on the rank; counts are lengths of the enumeration; binary search over prefix sums.

*Result.* Proved for every deterministic acyclic automaton with start state 0 that does not accept the empty word (C53_numbers_partial) and for the automaton of every sorted word list without the empty word (C53_list_partial). False of words that are not accepted (C53_outside_false: find does not compare the symbol) and where the empty word is accepted (C53_empty_false).

*Theorems.* `Fsa.C53_numbers_partial` (cqp), `Fsa.C53_list_partial` (cqp), `Fsa.C53_outside_false` (qp), `Fsa.C53_empty_false` (qp)

### C54 Completed pipelines are complete — partial

Whatever pipeline the auto completer chooses, every processor in it finds everything it requires provided by processors before it, the processors the user asked for are there in the asked order with admissible choices, a request that is complete already is left as it is, what is required comes from a processor of the right language, and every other processor was inserted because a later one needs it.

*Method.* A relation Expand says what one run of the search inserts; the fuelled search refines it, and the invariants (requirements met, order kept, needed) are proved by induction on it.

*Result.* C54_fulfilled, C54_requested and C54_unchanged are proved for every environment. False: the requirement check ignores the language of the provider (C54_language_false) and an inserted processor need not be needed, since qualities are summed (C54_superfluous_false). The tags a factory says it provides are assumed to be those its promises provide.

*Theorems.* `Pipeline.C54_fulfilled` (qp), `Pipeline.C54_requested` (cqp), `Pipeline.C54_unchanged` (qp), `Pipeline.C54_language_false` (cqp), `Pipeline.C54_superfluous_false` (cqp)

### C55 The best completed pipeline is chosen — proved

The completed pipeline the auto completer chooses is a completion of the request and no other completion it can reach has higher quality, or equal quality and smaller time estimate; it reports failure exactly if there is no completion.

*Method.* The chosen pipeline is the maximum of a fold over all completions, by induction on the list.

*Result.* C55_best for the completions the search visits, C55_failure: failure exactly if there is none.

*Theorems.* `Pipeline.C55_best` (cqp), `Pipeline.C55_failure` (cqp)

### C56 Completing a pipeline ends — partial

The search for processors to insert ends for every set of factories and every request, with a pipeline or with a failure.

*Method.* Induction on a rank that goes down along requirements; for the negation, induction on the fuel.

*Result.* C56_ends_partial: the search ends if the requirements have no circle. False in general: C56_circle_false (two processors that require each other: no end although there is a solution) and C56_no_language_false (no language: a list position that was erased is used).

*Theorems.* `Pipeline.C56_ends_partial` (qp), `Pipeline.C56_circle_false` (qp), `Pipeline.C56_no_language_false` (qp)

### C57 Aliases stand for exactly the processors they lead to — partial

After any sequence of alias declarations, the destinations of a name are exactly the names that are no aliases and are reached from it through declared aliases, and the aliases of a name are exactly the aliases from which it is reached.

*Method.* The two maps are shown to say what was declared (induction over the calls); then induction on the depth of the search against a chain relation.

*Result.* C57_destinations_partial: exact for chains of at most five steps; C57_aliases_partial: exact if the declarations have no circle. False: C57_long_false (a chain of six stands for nothing), C57_circle_false (a circle: getAllAliases never returns).

*Theorems.* `Pipeline.C57_destinations_partial` (qp), `Pipeline.C57_aliases_partial` (cqp), `Pipeline.C57_long_false` (qp), `Pipeline.C57_circle_false` (p)

### C58 Compiled rule conditions mean what is written — partial

Running the compiled condition of a grammar rule gives true exactly if the condition, evaluated from left to right with short-circuit `,`, `;`, `=>` and `::`, is true, and it leaves exactly the attributes, score, chosen tree and printed values the evaluation gives, whatever was on the stack before.

*Method.* Induction on the condition: the piece of code for it, started at the place of the POP before it or at the end of the code so far, reaches its end with the value on top of the stack and the frame of the evaluation; the same induction shows that where the jump is left out the value is always true.

*Result.* C58_compiled_partial: for all conditions in which 0 and -1 are only written on the right, no :: is in a right operand, the middle operand of a threefold intersection is no constant, and what is before a comma does not end in an assignment of something with a jump. Each of the four restrictions is needed: C58_zero_false, C58_else_false, C58_constant_false, C58_dropped_false. Numbers are exact in the model.

*Theorems.* `Gobio.C58_compiled_partial` (cqp), `Gobio.C58_none` (cqp), `Gobio.C58_dropped_false` (cqp), `Gobio.C58_constant_false` (cqp), `Gobio.C58_else_false` (cqp), `Gobio.C58_zero_false` (cqp)

### C59 Compiled rule conditions always end — proved

The code compiled from any expression tree ends in STOP, all its jumps lead forward to an instruction of the code, and therefore running it ends after at most as many steps as there are instructions.

*Method.* Induction on the expression tree: jumps of each piece stay inside the piece and go forward, the pieces before it stay as they are; then induction on the distance to the end of the code.

*Result.* C59_forward and C59_ends, for every expression tree, also for those no parser makes.

*Theorems.* `Gobio.C59_forward` (cqp), `Gobio.C59_ends` (cqp)

### C60 Rows of the PSI format are read as they were written — partial

Reading a row (or a whole file, with or without header) that the PSI writer wrote gives back the number, beginning, end, text, tags, annotation text, category, score, attributes and partitions of each edge; two different rows are never the same line.

*Method.* The line is seven cells with blanks between; each parser takes exactly its cell because the next character stops it; unescaping is the inverse of escaping (C15) piece by piece. Files by induction on the rows: no row has a newline or begins with #.

*Result.* C60_row_partial, C60_file_partial, C60_injective_partial: for rows as in Row.Plain. The restrictions are needed: C60_symbol_false (categories with , < [), C60_tag_false (tags with _), C60_category_false (no category), C60_shorten_false (text that is shortened). How a score is printed and read is a parameter.

*Theorems.* `PsiFormat.C60_row_partial` (cqp), `PsiFormat.C60_file_partial` (cqp), `PsiFormat.C60_injective_partial` (cqp), `PsiFormat.C60_symbol_false` (p), `PsiFormat.C60_tag_false` (p), `PsiFormat.C60_category_false` (p), `PsiFormat.C60_shorten_false` (–)

### C61 Partitions in the PSI format are read as they were written — partial

Reading the list of partitions the PSI writer wrote for an edge gives back each partition: the numbers and roles of its edges in order, its tags and its score, also those that are left out because they are the same as those of the edge.

*Method.* Induction on the list of edges and on the list of partitions: each word is read before the separator that follows it.

*Result.* C61_partitions_partial: for partitions as in PlainPart. The restrictions are needed: C61_hidden_false (a skipped edge before a written one), C61_empty_false (a partition without edges), C61_tag_false (tags with _).

*Theorems.* `PsiFormat.C61_partitions_partial` (cqp), `PsiFormat.C61_hidden_false` (p), `PsiFormat.C61_empty_false` (p), `PsiFormat.C61_tag_false` (p)

### C62 Brackets written into the text are complete and nested — partial

The output of the bracketing writer is the text with the brackets of every edge in it: without the brackets it is the text, the brackets of an edge enclose exactly the text of the edge, and brackets are properly nested if no two edges cross.

*Method.* The index that runs backward gives all ends before the place, nearest first, then all ends after it, farthest first. The pieces are read with a stack; at each place the stack is all open edges, those opened last first. Edges that do not cross are closed from the top. What a stack accepts is nested.

*Result.* C62_complete_partial: any edges between symbols that go forward; C62_nested_partial: such edges that do not cross. The restrictions are needed: C62_crossing_false, C62_point_false (edges of no length are not printed).

*Theorems.* `Bracket.C62_complete_partial` (cqp), `Bracket.C62_nested_partial` (cqp), `Bracket.C62_crossing_false` (cqp), `Bracket.C62_point_false` (cqp)

### C63 Brackets of edges at the same places are in the order in which the edges were made — partial

When several edges are at the same places, putting their brackets in order ends, loses nothing, and puts the brackets of an edge outside those of the edge it was made from.

*Method.* Places times ranks gets smaller with each exchange. When the loops end, all pairs but the first have been compared since the last exchange.

*Result.* C63_ends (ends, nothing lost) and C63_keep hold in full. C63_order_partial: the order is right except for the first two; C63_two_partial: right for at most two edges. C63_three_false: wrong for three.

*Theorems.* `Bracket.C63_ends` (cqp), `Bracket.C63_order_partial` (cqp), `Bracket.C63_two_partial` (cqp), `Bracket.C63_keep` (qp), `Bracket.C63_three_false` (cqp)

### C64 Edges in a set are ordered — partial

The comparison of edges that is used for sets of edges is a strict order: irreflexive, asymmetric, transitive, and total on edges that differ.

*Method.* Field by field; concrete edges for the negations.

*Result.* C64_total_partial: irreflexive and total; C64_asymmetric_partial: asymmetric for edges of which one is at most the other in every field. C64_order_false, C64_transitive_false: not asymmetric, not transitive.

*Theorems.* `Bracket.C64_total_partial` (cqp), `Bracket.C64_asymmetric_partial` (cqp), `Bracket.C64_order_false` (–), `Bracket.C64_transitive_false` (–)

### C65 Patterns print what their parts stand for — partial

Printing edges with patterns gives, for each edge and each pattern, the concatenation of what the parts of the pattern stand for (tags, category, text, attributes, score, role, characters); a list in a pattern is what its inner pattern gives for all edges that agree in the fields named, with the separator between.

*Method.* Each part is recognised at its place whatever is before and after it. Then an invariant about the attributes put in and the fields used, over the parts from left to right.

*Result.* C65_patterns_partial and C65_list_partial: names without their closing bracket, all attributes named are there if %A is used, one list in the first of two patterns, no % printed before it or in the second pattern. C65_loop_false (does not end), C65_missing_false, C65_empty_false, C65_text_false, C65_role_false. Modelled for vectors (duplicates kept).

*Theorems.* `Bracket.C65_patterns_partial` (cqp), `Bracket.C65_list_partial` (cqp), `Bracket.C65_loop_false` (cqp), `Bracket.C65_missing_false` (cqp), `Bracket.C65_empty_false` (cqp), `Bracket.C65_text_false` (cqp), `Bracket.C65_role_false` (cqp)

### C66 For each vertex the right edges are printed — partial

At each vertex visited, the writer prints as one alternative the edges with the basic tag; if there are none, those with the first fallback tag that has some; only the first of them without alternatives; never discarded ones, and blank ones only if asked for. Nothing of one vertex is carried over to another.

*Method.* The queues after a vertex was read are filters of its edges, and all are empty again before the next. The loop over fallback tags takes the first filter that is not empty. A group once opened stays open, so the vertices split where the first one is opened.

*Result.* C66_plain: in full without groups (no tag twice at an edge). C66_grouped_partial: with groups, from the first vertex on where some group is opened; C66_lost_false: edges before are lost even if in a group.

*Theorems.* `IterWriter.C66_plain` (qp), `IterWriter.C66_grouped_partial` (cqp), `IterWriter.C66_lost_false` (cqp)

### C67 Groups are opened and closed in turn — partial

For every tag the writer was asked to group by, groups are opened and closed in turn; when edges with the tag follow each other, each gets a group with exactly what is within it.

*Method.* An invariant for each tag: the calls so far are pairs and an opening, if it is open, and none otherwise; the keys of the map are sorted, so each is closed once. For segments: where the last edge ended is where the next one begins, and no other vertex opens.

*Result.* C67_turns_partial: each tag is opened and closed in turn or closed once without being opened (C67_unopened_false); C67_first: in turn and at least once if an edge with the tag begins at vertex 0. C67_segments_partial: exact for one tag whose edges follow each other from vertex 0 on; C67_gap_false: not if there is a gap.

*Theorems.* `IterWriter.C67_turns_partial` (qp), `IterWriter.C67_first` (qp), `IterWriter.C67_segments_partial` (cqp), `IterWriter.C67_unopened_false` (cqp), `IterWriter.C67_gap_false` (cqp)

### C68 The simple output puts separators between, never before or after — partial

The simple output is the elements of an alternative with the separator of alternatives between, the alternatives with the word separator between, and the groups that are not empty with the separator of their tag between.

*Method.* Each alternative adds one word to the block, each group one block to the text; an invariant says which separators wait between two groups.

*Result.* C68_plain_partial, C68_lines_partial: texts that are not empty; no groups, or one tag whose edges follow each other. C68_empty_false, C68_order_false: with empty texts or two tags it is different.

*Theorems.* `IterWriter.C68_plain_partial` (qp), `IterWriter.C68_lines_partial` (cqp), `IterWriter.C68_order_false` (cqp), `IterWriter.C68_empty_false` (cqp)

### C69 The JSON output is JSON for the elements printed — partial

The JSON output is a JSON text for the array of groups of alternatives (an alternative of one element is that element, empty groups are left out); strings are quoted so that they stand for themselves; annotation items are objects with their category, text and values.

*Method.* Arrays on the stack against the texts of alternatives; commas between give the grammar of items. Inversion of the grammar on an escaped string, byte by byte.

*Result.* C69_string characterises when a quoted string is JSON, and for what; C69_item_partial; C69_plain; C69_groups_partial: one tag whose edges follow each other. C69_control_false: control characters are not escaped; C69_two_false: with two tags groups are closed that should not be.

*Theorems.* `IterWriter.C69_string` (qp), `IterWriter.C69_control_false` (cqp), `IterWriter.C69_item_partial` (cqp), `IterWriter.C69_plain` (qp), `IterWriter.C69_groups_partial` (cqp), `IterWriter.C69_two_false` (cqp)

### C70 The SRX segmenter cuts all of the text and comes to an end — partial

Whatever the rules, cutting a text into segments comes to an end; the segments follow each other from the beginning of the text to its end, none is empty, and all begin and end at characters.

*Method.* Where a rule searches next and its break are boundaries of characters; each round of each loop moves one of them on by a character at least.

*Result.* C70_pieces: in full for well-formed text. C70_invalid_false: on a text with a byte that cannot begin a character the search can go on forever.

*Theorems.* `Srx.C70_pieces` (cqp), `Srx.C70_invalid_false` (qp)

### C71 The SRX segmenter breaks where the standard says — partial

A text is broken at exactly those positions at which the first rule (in order) that matches there is a breaking rule.

*Method.* An invariant for each rule says that matches that break at or after the position reached either begin where the search goes on, and then not before the break kept, or are the break kept. So an update gives the least match; the nearest candidate is the first position some breaking rule matches, its count that of the non-breaking rules before the first breaking rule that matches there.

*Result.* C71_standard_partial: exact, for rules whose matches break at one place only, later if they begin later, and when no break falls inside a match. C71_single_false, C71_monotone_false, C71_straddle_false: each of the three conditions is needed.

*Theorems.* `Srx.C71_standard_partial` (cqp), `Srx.C71_single_false` (cqp), `Srx.C71_monotone_false` (cqp), `Srx.C71_straddle_false` (cqp)

### C72 Groups in patterns of rules are made non-capturing — partial

In a pattern of a rule every opening parenthesis that is neither escaped nor followed by a question mark is replaced by `(?:`, and nothing else is changed; so no group of the pattern captures and character classes stay as they are.

*Method.* A two-state machine (escaped or not) equals both the loop, whose finished part never ends with a backslash, and the rewriting of tokens.

*Result.* C72_parens: exactly which parentheses are changed. C72_captures_partial: no group captures if none has a name; C72_named_false. C72_classes_partial: classes without a plain parenthesis; C72_classes_false: `[(]` is changed.

*Theorems.* `Srx.C72_parens` (cqp), `Srx.C72_captures_partial` (cqp), `Srx.C72_named_false` (cqp), `Srx.C72_classes_partial` (cqp), `Srx.C72_classes_false` (cqp)

### C73 The rules of a language are those the document maps to it — partial

The rules used for a language are those of the rule lists named by the language maps that match it, with cascading all of them, otherwise the first; in the order of the maps.

*Method.* Names found so far are those of the maps chosen; with distinct names in the order of the lists, selecting by name gives the lists one by one.

*Result.* C73_rules characterises the rules in full; C73_first: as the standard wants without cascade; C73_cascade_partial: with cascade if the lists come in the order of the maps; C73_order_false: not otherwise.

*Theorems.* `Srx.C73_rules` (qp), `Srx.C73_first` (qp), `Srx.C73_cascade_partial` (cqp), `Srx.C73_order_false` (cqp)

### C74 Items of one manager keep their own attributes — partial

Whatever items are made, copied, changed and added to each other under one manager: each has exactly the attributes it was given, with the last values; an attribute without a value reads as NULL; attributes are listed in the order in which they were first used; only a 129th attribute (or an item that does not exist) makes the program fail.

*Method.* An invariant says that each item holds, at the number of each attribute it has, its value, that its vector ends with an attribute it has, and that gaps are NULL; every operation keeps it.

*Result.* C74_store and C74_limit: in full, with the order in which the manager first saw the attributes. C74_order_false: not the order in which they were set in the item.

*Theorems.* `Annot.C74_store` (qp), `Annot.C74_limit` (qp), `Annot.C74_order_false` (cqp)

### C75 Equality and hash of annotation items — partial

operator== of items is an equivalence relation, equal items have equal hashes, and items are equal exactly when they have the same category, text and attributes with the same values.

*Method.* Equality is pointwise equality of vectors padded with empty strings; the invariant of C74 gives the vectors from the attributes.

*Result.* C75_equivalence, C75_hash, C75_same in full. C75_attributes_partial: equal items have the same attributes unless a value is `false` or the empty string; C75_absent_false, C75_empty_false.

*Theorems.* `Annot.C75_equivalence` (cqp), `Annot.C75_hash` (cqp), `Annot.C75_same` (cqp), `Annot.C75_attributes_partial` (cqp), `Annot.C75_absent_false` (cqp), `Annot.C75_empty_false` (cqp)

### C76 Values given as strings are read back — partial

A string set as the value of an attribute is read back as the same string.

*Method.* The reader accepts exactly the numerals of 32 bits (both directions by analysis of white space, sign and digits); the shift of 32 bits keeps exactly the numbers of 31 bits; digits of a number are unique without leading zeros.

*Result.* C76_number, C76_word say what is read for every string; C76_unchanged_partial: exactly which strings are read back unchanged. C76_zeros_false, C76_large_false, C76_alias_false: 007, 1073741824 and any are not.

*Theorems.* `Annot.C76_number` (cqp), `Annot.C76_word` (cqp), `Annot.C76_unchanged_partial` (cqp), `Annot.C76_zeros_false` (cqp), `Annot.C76_large_false` (cqp), `Annot.C76_alias_false` (cqp)

### C77 Conversion rules without alternatives act on each item by itself — partial

Applying rules whose commands have no alternatives ends; every item stays where it is; an item that does not meet the words and conditions of a rule is left as it is by it, one that does is changed by the commands in order, or removed by SKIP.  A condition holds for an attribute that was given the same value.

*Method.* The loop over concrete items simulates one over abstract items (invariant of C74, attributes within a set of at most 128); without alternatives nothing is appended.

*Result.* C77_rules: in full for any rules without alternatives; C77_constants says what the attributes are then. C77_condition_false: the conditions `A = any` and `A = 007` fail for attributes set to `any` and `007`.

*Theorems.* `Unumsunt.C77_rules` (cqp), `Unumsunt.C77_constants` (cqp), `Unumsunt.C77_condition_false` (cqp)

### C78 Alternatives give one item for each — partial

A command with alternatives makes one item for each of them, which differ just in it; applying the rule ends.

*Method.* Same simulation; items appended are quiet if they do not meet the rule; otherwise the part of the vector still to be visited always has an item that meets it.

*Result.* C78_alternatives: exactly what is made, if no new item meets the rule again. C78_endless_false: otherwise, if conditions do not ask for what is changed, applying never ends. C78_rest_false, C78_category_false, C78_reference_false: later commands, references for the category and references to the attribute itself are not treated alike for all alternatives.

*Theorems.* `Unumsunt.C78_alternatives` (cqp), `Unumsunt.C78_endless_false` (cqp), `Unumsunt.C78_rest_false` (cqp), `Unumsunt.C78_category_false` (cqp), `Unumsunt.C78_reference_false` (cqp)

### C79 Maps convert categories, attributes and values — partial

The converted item has for each attribute of the item the attribute it is mapped to, with the value its value is mapped to, and nothing else; its category is mapped; then the rules are applied.

*Method.* Fold of assignments as a function of the last pair mapped to an attribute; with an injective renaming that pair is unique.

*Result.* C79_convert characterises the result in full; C79_renamed_partial: as wanted if no two attributes are mapped to one; C79_collision_false; C79_special_false: special values are not mapped by the words they are written with.

*Theorems.* `Unumsunt.C79_convert` (cqp), `Unumsunt.C79_renamed_partial` (cqp), `Unumsunt.C79_collision_false` (cqp), `Unumsunt.C79_special_false` (cqp)

### C80 Rule files are read as they are written — partial

A line with conditions, words and commands, with any white space around them, is read as a rule with just these; a line with several commands with alternatives as rules that together do what it says; all lines of a file are read.

*Method.* Runs of characters up to separators, trimming and words are inverted; commands are grouped by a function that is shown to give the grouping described.

*Result.* C80_lines, C80_skip, C80_split: what is read, for all lines. C80_split_false: the rules a line is split into do not do what it says. C80_blank_false: reading stops at a blank line. Lines that begin with `@` are in the model, without theorems.

*Theorems.* `Unumsunt.C80_split` (cqp), `Unumsunt.C80_lines` (cqp), `Unumsunt.C80_skip` (cqp), `Unumsunt.C80_split_false` (cqp), `Unumsunt.C80_blank_false` (cqp)

### C81 A cutter's items become consecutive edges over the right places — partial

Running a cutter (tokenizer, segmenter) from a vertex adds for each item it cuts off an edge with the item and the cutter's tags over the edges of the path that make up the text of the item; these edges follow one another from the beginning of the path to its end, and no other edge is added.

*Method.* The iterator of the sequence stands at a suffix of the list of edges; a relation between states (only such edges are added, everything present stays) is kept by each item.

*Result.* C81_items: in full, if the cutter cuts at ends of edges of the path, makes items for at least one edge that are not there yet, and the lattice has no loose vertices. C81_within_edge_false: otherwise items are put on wrong places; C81_used_up_false: or the run ends with an exception.

*Theorems.* `Lattice.C81_items` (cqp), `Lattice.C81_within_edge_false` (cqp), `Lattice.C81_used_up_false` (cqp)

### C82 A cutter is run once on the text of each super edge — partial

runCutter runs the cutter on the text of each edge that matches the super mask, once, and items stay within that edge.

*Method.* The state after the query has the same view; afterwards no edge with the super tag starts at a later vertex, as the new edges lack it.

*Result.* C82_once_partial: one super edge, at the beginning of the text: the cutter is run exactly once. C82_beyond_false: with two adjoining super edges the text of the second is cut twice, as the path does not stop at the end of the edge.

*Theorems.* `Lattice.C82_once_partial` (cqp), `Lattice.C82_beyond_false` (cqp)

### C83 MD5 is that of RFC 1321 — partial

The digest of a message that is handed over in any pieces is the one RFC 1321 defines (constants from the sine function, padding, little-endian words), whatever was in memory before; it is printed with two hexadecimal digits for each byte, and it does not change after finalize.

*Method.* The constants: powers of a rational approximation of exp(i) with error bounds, from the exponential series. The state after any pieces is a function of all bytes so far (whole blocks done, the rest in the buffer); finalize feeds the padding.

*Result.* C83_digest, C83_text, C83_same, C83_final: in full if each piece has less than 2^32 - 64 bytes. C83_large_false, C83_behind_false: longer pieces are cut, or bytes behind them are read.

*Theorems.* `Md5.C83_digest` (cqp), `Md5.C83_text` (cqp), `Md5.C83_same` (cqp), `Md5.C83_final` (qp), `Md5.C83_large_false` (cqp), `Md5.C83_behind_false` (qp)

### C84 Stored files are kept — partial

After any sequence of calls of the file storage, the file at each path that has been returned has the content that was stored, or, if stored by digest, a content with the same digest; no other file is changed.

*Method.* Names from ids and from digests differ in length and never meet; ids differ as their numbers do (C51). Induction over the calls.

*Result.* C84_stored: in full for less than 10000 calls after a start, if files left from before do not have names that may still be given. C84_restart_false: a file can be lost after a restart.

*Theorems.* `Md5.C84_stored` (cqp), `Md5.C84_restart_false` (cqp)

### C85 Union, intersection and direction of word alignments — proved

symal prints for each sentence pair one line with exactly the links of the direct alignment, of the inverse alignment, of both, or of at least one of them, as asked for, each link once, positions counted from 0.

*Method.* The text is a concatenation over filtered positions; links and points correspond one to one.

*Result.* C85_srctotgt, C85_tgttosrc, C85_intersect, C85_union. Reading the input file is not modelled; its assertions are hypotheses.

*Theorems.* `Symal.C85_srctotgt` (cqp), `Symal.C85_tgttosrc` (cqp), `Symal.C85_intersect` (cqp), `Symal.C85_union` (cqp)

### C86 Growing of word alignments — proved

The grow heuristics (with or without diagonals, final steps, both words uncovered) end and print an alignment as it is defined: starting with the intersection, links of the union next to a present one that link an unlinked word are added one by one until there are none; then, if asked for, further links of the inverse and of the direct alignment. The result lies between the intersection and the union, and with final steps each word with a link in the union has a link.

*Method.* Invariant: the arrays say which words have links, the matrix which links are missing. A round without addition leaves all neighbours blocked; a round with one leaves fewer words without links. An iterator moves on in a finite order.

*Result.* C86_grow: termination, and the result is one of the definition. C86_between, C86_covered: consequences.

*Theorems.* `Symal.C86_grow` (cqp), `Symal.C86_between` (cqp), `Symal.C86_covered` (cqp)

### C87 Descriptions of a Morfologik tag — partial

A tag of the dictionary Morfologik is a list of attributes, each a list of alternatives. The parser returns exactly the combinations of one alternative for each category, each one once; a category has the alternatives of its first attribute, unknown attributes do not count.

*Method.* Invariant of the loop: the map has the text of the first attribute of each category, the counter is the number of entries with alternatives plus the number of attributes with alternatives that were not kept. Each round of the expansion removes one entry with alternatives; by induction the result is the product if the numbers agree, empty if the counter is larger.

*Result.* C87_every_tag: every string is written for exactly one tag. C87_parse_partial: the result is the product, if each attribute with alternatives is the first of a known category; C87_lost: otherwise the result is empty, which C87_unknown_false shows on examples.

*Theorems.* `Morfologik.C87_every_tag` (qp), `Morfologik.C87_parse_partial` (cqp), `Morfologik.C87_lost` (cqp), `Morfologik.C87_unknown_false` (cqp)

### C88 Lexeme and forms of a Morfologik tag — partial

The attributes of a tag are divided between the lexeme (part of speech, gender of nouns, aspect of verbs and participles, alternatives joined by dashes) and its forms (all combinations of alternatives of the rest); none belongs to both.

*Method.* As C87; removal of entries keeps the difference of the counter and the number of entries with alternatives, except for pos.

*Result.* C88_lexeme, C88_speech: the attributes of the lexeme, for all tags. C88_forms_partial, C88_no_forms: the forms, for all tags. C88_split_partial: nothing belongs to both, if the tag has the category pos. C88_pos_false: alternatives of the part of speech make all forms vanish. C88_participle_false: the aspect of a participle belongs to both.

*Theorems.* `Morfologik.C88_forms_partial` (cqp), `Morfologik.C88_no_forms` (cqp), `Morfologik.C88_pos_false` (cqp), `Morfologik.C88_speech` (cqp), `Morfologik.C88_lexeme` (cqp), `Morfologik.C88_split_partial` (cqp), `Morfologik.C88_participle_false` (cqp)

### C89 Escaped characters are restored — partial

`unescape` returns a text exactly if the input is a way to write it with `&name;`; it throws if a name is unknown; it restores what was escaped; it always ends.

*Method.* Every string is of one of three forms (decodable, with an unknown name first, ending in a name without semicolon), by induction on the length; the loop is followed for each of them. If the semicolon is missing the loop is back at the position 0, so by induction no number of rounds suffices.

*Result.* C89_unescape, C89_throws, C89_diverges: which strings are decoded, rejected, make the loop run for ever; together these are all strings. C89_rounds: the bound on the rounds in the model does not matter. C89_escape: escaping is undone. C89_ends_false: it does not always end.

*Theorems.* `Xml.C89_unescape` (cqp), `Xml.C89_throws` (cqp), `Xml.C89_diverges` (cqp), `Xml.C89_rounds` (cqp), `Xml.C89_escape` (cqp), `Xml.C89_ends_false` (cqp)

### C90 Lines are cut into tags and texts — partial

`TokenizeXml` cuts a line into tags, from `<` to the next `>`, and the texts between them; put together again they are the line.

*Method.* Induction on the length of the line: the loop returns a cut, and a cut is unique.

*Result.* C90_tokens_partial: the tokens of all lines. C90_whole_partial: nothing is lost exactly if there is a `>` behind each `<`. C90_lost_false: otherwise even the text before the tag is lost.

*Theorems.* `Xml.C90_tokens_partial` (cqp), `Xml.C90_whole_partial` (cqp), `Xml.C90_lost_false` (cqp)

### C91 Attributes of a tag — partial

`ParseXmlTagAttribute` returns the value of the attribute with the given name, the empty string if there is none.

*Method.* The first place of the pattern and the quote that ends the value are unique; an attribute that is harmless does not contain the pattern, nor does its border to the next one.

*Result.* C91_value: what is returned, for all tags and names. C91_list_partial, C91_absent_partial: the value in a list of attributes, if those before it are harmless. C91_empty_false, C91_suffix_false, C91_equals_false: why this is needed.

*Theorems.* `Xml.C91_value` (cqp), `Xml.C91_list_partial` (cqp), `Xml.C91_absent_partial` (cqp), `Xml.C91_empty_false` (cqp), `Xml.C91_suffix_false` (cqp), `Xml.C91_equals_false` (cqp)

### C92 Sentences with tags — partial

`ProcessAndStripXMLTags` accepts a line exactly if the tags are properly nested and each has a node of at least one word; it leaves the texts of the line, with the same words in the same order, and adds one node for each element, with the label and the positions of its first and last word.

*Method.* Completeness by induction on the items (the stack is as before, the line and the position have grown by the texts), soundness by strong induction on the tokens: a run that ends with an empty stack is one of items.

*Result.* C92_process_partial: which lines are accepted and what is returned, for all lines with a `<`. C92_words: the words of the result. C92_plain: lines without `<`. C92_single: a tag closed at once needs a span. C92_lost_false: the end of a line with a tag not closed is dropped without notice. C92_escaped_false: a line without tags is not decoded.

*Theorems.* `Xml.C92_process_partial` (cqp), `Xml.C92_words` (qp), `Xml.C92_plain` (cqp), `Xml.C92_single` (cqp), `Xml.C92_lost_false` (cqp), `Xml.C92_escaped_false` (cqp)

### C93 Nodes are connected to the tree — partial

After the nodes of a tree were added in the order in which their tags are closed, `ConnectNodes` sets the root, the parent of each node and the children of each node in their order.

*Method.* The index visits the nodes in preorder (sortedness of the index and permutation); the invariant of the loop is that the forest visited so far is linked and the previous node is the last one of it.

*Result.* C93_connect_partial: for all trees with one root in which no node has words of its own before its first child. C93_roots_false: two roots. C93_gap_false: a word before the first child.

*Theorems.* `Xml.C93_connect_partial` (cqp), `Xml.C93_roots_false` (p), `Xml.C93_gap_false` (cqp)

### C94 Spans are split at their children — partial

`Parse` ends and returns, for each span of at least two words over which there is a node, the points at which it is split into the longest nodes inside of it; for a tree these are the boundaries of the children.

*Method.* The inner loop takes the longest node; each round covers a further word because the word has a node, so the number of words suffices as a bound. For trees, all nodes lie inside of a node, around it or beside it.

*Result.* C94_parse_partial: for all nodes, if each word has a node of its own; C94_unique: the split points are determined by this; C94_tree_partial: they are the boundaries of children. C94_ends_false: otherwise the loop may run for ever.

*Theorems.* `Xml.C94_parse_partial` (cqp), `Xml.C94_unique` (qp), `Xml.C94_tree_partial` (cqp), `Xml.C94_ends_false` (qp)

### C95 Languages are recognised by their letters — proved

`guessLanguageByLetters` returns the first language such that the text has words and each word has one of the letters of the language, and `unknown` if there is none; a text that is not valid UTF-8 is not judged.

*Method.* The loop is followed on code points (C20); by induction on the text, for all states of the four flags, it accepts exactly if the word begun and all later words have a letter and some letter was seen.

*Result.* C95_letters: the answer for all valid texts; C95_invalid: all other texts.

*Theorems.* `Guess.C95_letters` (cqp), `Guess.C95_invalid` (cqp)

### C96 Languages are recognised by their bigrams — partial

`countBigramsInText` counts the bigrams of a text in the cells of a table, and `guessLanguageByBigramModel` returns the language whose table is nearest to their frequencies.

*Method.* Induction on the text for the counts; the counts of all cells add up to the number of bigrams; squares of differences of numbers between 0 and 1 add up to at most 512, less than the start value, so some language is taken; the loop keeps the first of the nearest.

*Result.* C96_counts_partial: the counts, the last bigram left out; C96_nearest_partial: the answer is the nearest language by these counts. C96_last_false: the last bigram is never counted. C96_single, C96_single_false: a text of one character of several bytes makes it throw.

*Theorems.* `Guess.C96_counts_partial` (cqp), `Guess.C96_nearest_partial` (cqp), `Guess.C96_last_false` (cqp), `Guess.C96_single` (cqp), `Guess.C96_single_false` (cqp)

### C97 The language guessed — partial

`guessLanguage` returns the forced language, a language of the guesser, or the default one: short texts are judged by letters, long ones by bigrams; with `--force` the answer is always one of the languages; a guesser for selected languages is made exactly if they are known.

*Method.* Cases of the control flow, with C95 and C96.

*Result.* C97_answer, C97_forced, C97_letters, C97_default, C97_bigrams, C97_invalid: the answers without and with a forced language. C97_force_partial: with `--force`, except for a single character of several bytes; C97_force_false: why. C97_create_partial: the selection of languages; C97_unknown_false: with `--force` and one language the name is not checked.

*Theorems.* `Guess.C97_answer` (cqp), `Guess.C97_forced` (cqp), `Guess.C97_letters` (cqp), `Guess.C97_default` (cqp), `Guess.C97_bigrams` (cqp), `Guess.C97_invalid` (cqp), `Guess.C97_force_partial` (cqp), `Guess.C97_force_false` (cqp), `Guess.C97_create_partial` (cqp), `Guess.C97_unknown_false` (cqp)

### C98 The iterator over the vertices — partial

`VertexIterator` yields every vertex of the lattice once: without loose vertices the positions between characters in the order of the text (those at an end of an edge, if useless ones are skipped), with loose vertices sorted so that the source of an edge stands before its target; behind the last vertex `next` throws.

*Method.* Induction over the characters of the text (C20) for the positions; an invariant over all calls that `vertices_` holds the loose vertices and the ends of the explicit edges; the place of a loose vertex by induction on its index in the topological order; the stable merge sort keeps the order of pairs that are in order.

*Result.* C98_text_all, C98_text_used, C98_end: without loose vertices. C98_loose: with loose vertices; sources before targets except for edges from a loose vertex back in the text. C98_back_false: such an edge; C98_end_false: with loose vertices `next` behind the end starts again; C98_inside_false, C98_malformed_false: why edges must begin and end between characters and the text must be well-formed.

*Theorems.* `Lattice.C98_text_all` (cqp), `Lattice.C98_text_used` (cqp), `Lattice.C98_loose` (cqp), `Lattice.C98_back_false` (cqp), `Lattice.C98_end` (qp), `Lattice.C98_end_false` (cqp), `Lattice.C98_inside_false` (cqp), `Lattice.C98_malformed_false` (cqp)

### C99 The iterators over the sorted edges — partial

`EdgesSortedBySourceIterator` and `EdgesSortedByTargetIterator` yield every edge that matches the mask once, sorted by the source or by the target.

*Method.* The walk of C98 as a relation; the edges collected are those at the vertices one after another; soundness and exactness of the queries by masks are C05, in-edges by C06.

*Result.* C99_edges: exactly the edges that the lattice returns at their ends for the mask, once, sorted. C99_exact_partial: exactly those that match, if no edge has come to match since the mask was first used (see C05). C99_inside_false: edges that begin within a character are not found.

*Theorems.* `Lattice.C99_edges` (cqp), `Lattice.C99_exact_partial` (cqp), `Lattice.C99_inside_false` (cqp)

### C100 Parents and children of edges — proved

`getParent` returns the first edge matching the mask of those that the edge is made of (in the order of the partitions); `getChildren` returns the edges between the same vertices that match the mask and are made of the given edge.

*Method.* The iterator over a sequence as a relation (`Listing`) between its state and the edges left, kept by registering the symbol mask; induction over it for both loops.

*Result.* C100_parent, C100_children: exactly, with how often a child is listed. C100_twice_false: a child is listed once for each partition that uses the parent; C100_descendants_false: only children, not "all the descendents" of the documentation. Partitions whose iteration throws are left out.

*Theorems.* `Lattice.C100_parent` (cqp), `Lattice.C100_children` (cqp), `Lattice.C100_twice_false` (cqp), `Lattice.C100_descendants_false` (cqp)

### C101 The origin of an edge — partial

`getEdgeOrigin` ends and returns the nearest ancestor of an edge that has the tag.

*Method.* Induction over the chain of first parents; strong induction over the number of the edge if parents are older. The circle is run symbolically for any number of rounds.

*Result.* C101_origin: what is found, in how many steps. C101_ends_partial: it ends if edges are made of older ones. C101_ends_false: it never ends on two edges made one of the other, which `addEdge` accepts; C101_nearest_false: only first parents are looked at.

*Theorems.* `Lattice.C101_origin` (cqp), `Lattice.C101_ends_partial` (cqp), `Lattice.C101_nearest_false` (cqp), `Lattice.C101_ends_false` (cqp)

### C102 Paths that skip blanks — partial

`getPathWithSkipping` and `getPathSkippingBlanks` end and yield a path that always takes the last edge matching the mask or, where none matches, one that is to be skipped, up to a vertex where there is neither.

*Method.* As for C10: every step leads forward in the text; invariant of the builder; the scan over the other edges by induction.

*Result.* C102_ends: it ends, with a chain of edges or with an exception. C102_path_partial, C102_blanks_partial: the documented path, if wherever nothing matches the first edge and no other is to be skipped. C102_throws_false: a blank that comes last makes it throw; C102_other_false: an edge that neither matches nor is blank is followed.

*Theorems.* `Lattice.C102_ends` (cqp), `Lattice.C102_path_partial` (cqp), `Lattice.C102_blanks_partial` (cqp), `Lattice.C102_throws_false` (cqp), `Lattice.C102_other_false` (cqp)

### C103 Cardinal numbers in words can be read back — partial

The words `integer2pltext` writes for a string of digits are the Polish cardinal numeral of that very number (masculine, feminine, genitive, genitive feminine), so different numbers get different words; a number that cannot be written is refused with `#`.

*Method.* A reader of numerals as the specification; each group and each name of a power checked over its finite domain by the kernel, the loop over groups by induction with the reading of the words so far as invariant.

*Result.* C103_cardinal, C103_injective: all strings of digits below 10^660. C103_refused_false: 2·10^660 is neither written nor refused (*dwa #*).

*Theorems.* `Numconv.C103_cardinal` (cqp), `Numconv.C103_injective` (cqp), `Numconv.C103_refused_false` (p)

### C104 Ordinal numbers in words — partial

The words `integer2pltext` writes for an ordinal form are the Polish ordinal of the number: a cardinal number followed by the ordinal end for the last group not of zeros, powers of a thousand making one word with their number.

*Method.* As C103, with the end of the ordinal fixed at the first group (from the right) that is not of zeros.

*Result.* C104_ordinal: masculine and feminine in full. C104_plural_partial: plurals if the last group not of zeros is the last one or a one; C104_plural_false: *dwatysięczne*.

*Theorems.* `Numconv.C104_ordinal` (cqp), `Numconv.C104_plural_partial` (cqp), `Numconv.C104_plural_false` (cqp)

### C105 Decimals, signs, per cents, sums and fractions in words — partial

`num2pltext` says a number with a comma as a whole and tenths, hundredths, thousandths, a half, or digit groups after *przecinek*; signs, per cents, sums and fractions are said with their words, and what cannot be said is refused with `#`.

*Method.* From C103 and C104 by the algebra of joining words; induction over the zeros after the comma.

*Result.* C105_sign, C105_percent, C105_sum, C105_decimal_partial, C105_fraction_partial. C105_zeros_false: one zero too many; C105_fraction_false: numerators above 999 refused; C105_refused_false: `#` is not kept after a sign or before a per cent.

*Theorems.* `Numconv.C105_decimal_partial` (cqp), `Numconv.C105_sign` (cqp), `Numconv.C105_percent` (cqp), `Numconv.C105_sum` (cqp), `Numconv.C105_fraction_partial` (cqp), `Numconv.C105_zeros_false` (cqp), `Numconv.C105_fraction_false` (p), `Numconv.C105_refused_false` (p)

### C106 When numbers in words read out of bounds — partial

`num2pltext` has defined behaviour for every string: it never reads before the beginning of a string.

*Method.* Totality of every table lookup by groups; case analysis of the splits; induction over signs and per cents.

*Result.* C106_cardinal, C106_other: exactly which strings read out of bounds. C106_total_false: some do.

*Theorems.* `Numconv.C106_cardinal` (cqp), `Numconv.C106_other` (cqp), `Numconv.C106_total_false` (p)

### C107 Differences and ranges in words — partial

`a-b` is said as a difference (*minus*) exactly when `a` is greater than `b`, otherwise as a range (*od … do …*, in the genitive).

*Method.* Induction over digits for both comparison loops.

*Result.* C107_whole: exactly, for whole numbers without zeros before them. C107_greater_partial: the greater first gives a difference. C107_range_false: "1,25-1,31", "1,50-1,5", "007-12" are said to be differences.

*Theorems.* `Numconv.C107_whole` (cqp), `Numconv.C107_greater_partial` (cqp), `Numconv.C107_range_false` (p)

### C108 As many codes of inflection as words — partial

The inflection returned with a number has exactly one code for each word of its text.

*Method.* Carried along the invariant of C103/C104.

*Result.* C108_cardinal, C108_decimal, C108_ordinal_partial. C108_codes_false: plural ordinals of thousands, numbers before nouns.

*Theorems.* `Numconv.C108_cardinal` (cqp), `Numconv.C108_ordinal_partial` (cqp), `Numconv.C108_decimal` (cqp), `Numconv.C108_codes_false` (p)

### C109 Inserting text into a lattice — partial

After `correctionInsert(here, text)` the text can be read from `here` along symbol edges, followed by anything that could be read from `here` before; nothing that could be read is lost.

*Method.* Induction over the characters with the invariant that the last vertex is loose, has no edges out and is a source of no key; all earlier edges stay (a frame on text, implicit edges and explicit edges as a prefix). Readings refuted by a complete search.

*Result.* C109_insert_partial: before the first symbol at a position of the text. C109_alternatives_false: not before the others. C109_end_loop, C109_end_false, C109_end_cycle: where nothing can be read one character throws and more make a cycle. C109_empty_undefined, C109_empty_false: the empty text is undefined behaviour.

*Theorems.* `Lattice.C109_insert_partial` (cqp), `Lattice.C109_alternatives_false` (cqp), `Lattice.C109_end_loop` (cqp), `Lattice.C109_end_false` (cqp), `Lattice.C109_end_cycle` (cqp), `Lattice.C109_empty_undefined` (qp), `Lattice.C109_empty_false` (cqp)

### C110 Erasing text from a lattice — partial

After `correctionErase(from, to)` what followed the erased range can be read from its beginning; nothing that could be read is lost.

*Method.* Case analysis on the first edge out, which is the implicit edge of the text.

*Result.* C110_erase_partial: ranges followed by a character. C110_end, C110_end_false: ranges at the end are refused. C110_alternatives_false: only the first symbol after the range.

*Theorems.* `Lattice.C110_erase_partial` (cqp), `Lattice.C110_end` (cqp), `Lattice.C110_end_false` (cqp), `Lattice.C110_alternatives_false` (cqp)

### C111 Replacing text in a lattice — partial

After `correctionReplace(from, to, text)` the text can be read from `from`, followed by what followed the replaced range; nothing that could be read is lost.

*Method.* Induction over both strings with C109 and C110 at the end; that no explicit edge without text hides a new one is an invariant of orderly histories.

*Result.* C111_replace_partial: as many characters. C111_shorter_partial: fewer, if a character follows. C111_shorter_false: otherwise an exception after changes. C111_longer: what is read for longer texts; C111_longer_false: it is not the text. C111_disorder_false: after another history no effect.

*Theorems.* `Lattice.C111_replace_partial` (cqp), `Lattice.C111_shorter_partial` (cqp), `Lattice.C111_shorter_false` (cqp), `Lattice.C111_longer` (cqp), `Lattice.C111_longer_false` (cqp), `Lattice.C111_nothing` (cqp), `Lattice.C111_disorder_false` (cqp)

### C112 Character sets of one byte — partial

In each of the single-byte character sets of tiniconv, a character is written as a byte if and only if that byte is read as the character, and the bytes stand for the characters that the standard tables say.

*Method.* A generic model of the generated code (ranges to tables) with a checkable condition under which encoding is the inverse of decoding for all numbers; the condition is checked for each table by evaluation. The bytes are a finite domain.

*Result.* C112_inverse, C112_injective: all 28 tables. C112_standard: 25 of them against the standard; C112_ascii. C112_mac_partial, C112_mac_false: Mac Cyrillic differs in three places. KOI8-RU has no standard table and is only covered by C112_inverse.

*Theorems.* `Iconv.C112_inverse` (qp), `Iconv.C112_injective` (qp), `Iconv.C112_standard` (p), `Iconv.C112_ascii` (p), `Iconv.C112_mac_partial` (p), `Iconv.C112_mac_false` (p)

### C113 UTF-8 of tiniconv — partial

The decoder reads a character if and only if the bytes begin with its UTF-8 encoding; the encoder writes that encoding, if there is room; a proper beginning of a character is told from an illegal sequence.

*Method.* Case analysis on the lengths with arithmetic of shifts and masks turned into division and remainder.

*Result.* C113_decode, C113_encode: exactly RFC 2279. C113_unicode_partial, C113_unicode_false: surrogates and numbers above 10FFFF are accepted. C113_few_partial, C113_few_false: some illegal sequences are taken for incomplete ones.

*Theorems.* `Iconv.C113_decode` (cqp), `Iconv.C113_encode` (cqp), `Iconv.C113_unicode_partial` (qp), `Iconv.C113_unicode_false` (cqp), `Iconv.C113_few_partial` (qp), `Iconv.C113_few_false` (cqp)

### C114 UTF-7 of tiniconv — partial

Every text in UTF-7 (RFC 2152) is converted to the same text in UTF-8; every Unicode text is converted to UTF-7 so that it can be read back.

*Method.* The state of the decoder/encoder stands for a list of pending bits; induction over the text with the bits read so far against the bits of the UTF-16 units.

*Result.* C114_decode, C114_encode, C114_round_trip: with the end that utf7_reset writes. C114_end_false: tiniconv_convert never writes it.

*Theorems.* `Iconv.C114_decode` (cqp), `Iconv.C114_encode` (cqp), `Iconv.C114_round_trip` (cqp), `Iconv.C114_end_false` (p)

### C115 UCS-2 of tiniconv — partial

Text in UCS-2 with byte order marks anywhere is read as the characters it stands for; text without U+FEFF is written so that it can be read back.

*Method.* Induction over the text; the state is the byte order.

*Result.* C115_decode. C115_encode_partial: without U+FEFF. C115_mark_false: U+FEFF is written and then taken for a mark.

*Theorems.* `Iconv.C115_decode` (cqp), `Iconv.C115_encode_partial` (cqp), `Iconv.C115_mark_false` (cqp)

### C116 Conversion of texts by tiniconv — partial

A text all of whose characters the other encoding has is converted as a whole, or, with less room, up to some character, and the conversion can then be continued; it stops before illegal bytes and before characters that the other encoding has not; it never aborts and never leaves the buffers.

*Method.* Induction over a relation saying how a text is read/written character by character from state to state; loop invariant for any room. Safety: an invariant of the states of each codec.

*Result.* C116_whole, C116_pieces, C116_safe, C116_illegal (from UTF-8), C116_unwritable (UTF-8 to one byte). C116_ok_false: OK is also returned if the buffer is full and input is left. Missing: stopping for the other encodings, the ignore options, CP1255, CP1258 and the East Asian encodings.

*Theorems.* `Iconv.C116_whole` (cqp), `Iconv.C116_pieces` (cqp), `Iconv.C116_ok_false` (p), `Iconv.C116_safe` (cqp), `Iconv.C116_illegal` (cqp), `Iconv.C116_unwritable` (cqp)

### C117 EncodingConverter — partial

`EncodingConverter::convert` returns the text in the encoding asked for, or the text itself if it cannot be converted.

*Method.* From C116 with the size of the buffer; refutations by evaluation, the long one by C117_long.

*Result.* C117_convert_partial, C117_unknown, C117_unwritable, C117_safe, C117_encodings (which name stands for which encoding). C117_long, C117_long_false: more than 99999 bytes are cut off. C117_incomplete_false, C117_target, C117_target_false, C117_ucs2_false, C117_names: other failures. detect() (uchardet) is not modelled.

*Theorems.* `Iconv.C117_convert_partial` (cqp), `Iconv.C117_encodings` (qp), `Iconv.C117_safe` (cqp), `Iconv.C117_long` (cqp), `Iconv.C117_long_false` (cqp), `Iconv.C117_unknown` (p), `Iconv.C117_unwritable` (cqp), `Iconv.C117_incomplete_false` (cqp), `Iconv.C117_target` (p), `Iconv.C117_target_false` (p), `Iconv.C117_ucs2_false` (p), `Iconv.C117_names` (p)

### C118 Case of letters — proved

The lower, upper and title case of a code point are those of UnicodeData.txt (Unicode 6.0); the search in the tables of ranges finds the range of a code point whenever there is one.

*Method.* For tables in order the search is a lookup in the list of pairs the ranges stand for (induction); that list is the Unicode table with identical pairs inserted, which one pass over both shows by evaluation.

*Result.* C118_lower, C118_upper, C118_title: for all code points. C118_search, C118_ordered: the search.

*Theorems.* `Casing.C118_search` (cqp), `Casing.C118_ordered` (cqp), `Casing.C118_lower` (cqp), `Casing.C118_upper` (cqp), `Casing.C118_title` (cqp)

### C119 Special casing — partial

Characters with an unconditional row in SpecialCasing.txt are converted by it, so that the conversion of a text is the full case conversion of Unicode.

*Method.* The search returns only rows for the code point itself, so all code points but 103 have none; these are evaluated.

*Result.* C119_table: the tables are complete. C119_special_false, C119_upper_false: most rows are never found. C119_special_partial: exactly 14 of 103 are. C119_lower: lower case is right nevertheless. C119_upper_partial, C119_title_partial. The conditional row for the final sigma is not handled by the code at all.

*Theorems.* `Casing.C119_table` (qp), `Casing.C119_special_false` (qp), `Casing.C119_special_partial` (qp), `Casing.C119_lower` (cqp), `Casing.C119_upper_false` (cqp), `Casing.C119_upper_partial` (cqp), `Casing.C119_title_partial` (cqp)

### C120 Case of texts — partial

The conversion of a well-formed text is well-formed, is the conversion of its parts put together, and converting again changes nothing; converting to one case and then to another is converting to the other.

*Method.* The loop writes a concatenation over the characters (induction); characters that the tables do not change are trivial, the others are evaluated.

*Result.* C120_wellformed, C120_append, C120_lower_idempotent, C120_upper_idempotent, C120_upper_title. C120_title_idempotent_false, _partial. C120_upper_lower_partial, C120_lower_upper_partial: with the exact list of exceptions.

*Theorems.* `Casing.C120_wellformed` (cqp), `Casing.C120_append` (cqp), `Casing.C120_lower_idempotent` (cqp), `Casing.C120_upper_idempotent` (cqp), `Casing.C120_title_idempotent_false` (cqp), `Casing.C120_title_idempotent_partial` (cqp), `Casing.C120_upper_title` (cqp), `Casing.C120_upper_lower_partial` (cqp), `Casing.C120_lower_upper_partial` (cqp)

### C121 Case in Turkish and Azeri — partial

In Turkish and Azeri texts are converted by the conditional rows of SpecialCasing.txt for these languages; all languages but Lithuanian can be asked for; converting the head of a word does to its first letter what converting the word does.

*Method.* Induction over the text with the characters before as the context.

*Result.* C121_lower_partial: texts without marks of a combining class other than 0 and 230. C121_lower_false. C121_upper_partial, C121_languages. C121_head_false.

*Theorems.* `Casing.C121_languages` (cqp), `Casing.C121_lower_false` (cqp), `Casing.C121_lower_partial` (cqp), `Casing.C121_upper_partial` (cqp), `Casing.C121_head_false` (cqp)

### C122 Touched texts, heads and tails — partial

A text is said to be touched by a conversion if and only if the conversion changes it; converting the head (tail) of a word converts its first character (the rest) and nothing else, and converting both is converting the word.

*Method.* Induction over the text; a touched character without a special row changes, and UTF-8 is read in one way only.

*Result.* C122_untouched (all languages), C122_head_tail, C122_parts. C122_touched_false: sharp s; C122_touched_partial.

*Theorems.* `Casing.C122_untouched` (cqp), `Casing.C122_touched_false` (cqp), `Casing.C122_touched_partial` (cqp), `Casing.C122_head_tail` (cqp), `Casing.C122_parts` (cqp)

### C123 Spellings a word is looked up under — partial

A lemmatizer is asked for a word as it is and in lower case, and for no spelling twice.

*Method.* From C122 and C120.

*Result.* C123_lookups: exactly which spellings. C123_lower_false: not in lower case if the word is in capitals; C123_lower_partial. C123_once_false: sharp s; C123_once_partial.

*Theorems.* `Casing.C123_lookups` (cqp), `Casing.C123_lower_false` (cqp), `Casing.C123_lower_partial` (cqp), `Casing.C123_once_false` (cqp), `Casing.C123_once_partial` (cqp)

### C124 Annotations of lemmatizers — partial

Every annotation reported by a lemmatizer becomes an edge over the annotation it belongs to: the latest one of a kind further up, or the token; every report has a result; the annotations for different spellings of a word are kept apart.

*Method.* Invariant of the remembered edges against the list of edges made, by induction over the reports.

*Result.* C124_belongs, C124_complete: in all runs that are defined. C124_form_false, C124_defined_partial: undefined exactly if a form comes first. C124_apart_false, C124_apart_partial.

*Theorems.* `Casing.C124_belongs` (qp), `Casing.C124_complete` (qp), `Casing.C124_form_false` (–), `Casing.C124_defined_partial` (qp), `Casing.C124_apart_false` (qp), `Casing.C124_apart_partial` (qp)

### C125 Reading a lexicon — proved

A lexicon in plain text is a list of lines; comments begin with #; a line with words between tabs and spaces is an entry of a key and at least one field, all quoted; the fields of neighbouring entries with the same key are kept in their order. A lexicon with a wrongly quoted word or an entry of one word is refused.

*Method.* Induction over the lines with the run of equal keys read so far.

*Result.* C125_reads: exactly what is read, an indented line being nothing (C126). C125_files: for every file. C125_refused: exactly when an exception is thrown.

*Theorems.* `Lexicon.C125_reads` (cqp), `Lexicon.C125_files` (qp), `Lexicon.C125_refused` (cqp)

### C126 Every entry counts — partial

Every line of a lexicon gives the entry it means.

*Method.* The emptiness test is characterised exactly; the rest is C125.

*Result.* C126_false: a line that begins with a space or a tab is skipped. C126_dropped: whatever it says. C126_partial: lexica without such lines.

*Theorems.* `Lexicon.C126_false` (cqp), `Lexicon.C126_dropped` (cqp), `Lexicon.C126_partial` (cqp)

### C127 Records of a key — proved

Looking up a key of the lexicon gives the records of all its entries in their order and nothing else; another string gives nothing unless its hash and fingerprint are those of a key.

*Method.* The value of a key is its records with ";" between them (induction over the entries); splitting undoes joining; the store is C29.

*Result.* C127_records. A field with ";" comes in pieces, as the statement shows.

*Theorems.* `Lexicon.C127_records` (cqp)

### C128 Order of the entries of a lexicon — partial

A lexicon can be made from entries in any order: the keys given to the store are distinct.

*Method.* Induction over the entries.

*Result.* C128_distinct: exactly if equal keys stand together. C128_apart, C128_false: otherwise no hash function exists.

*Theorems.* `Lexicon.C128_distinct` (cqp), `Lexicon.C128_false` (cqp), `Lexicon.C128_apart` (cqp)

### C129 Writing a lexicon — partial

Entries with any key and any fields can be written as a lexicon and are read back.

*Method.* Quoting leaves no separators (C16) and is undone by unquoting (C15); splitting undoes joining.

*Result.* C129_round_trip: entries without "#" and empty fields. C129_needed: others cannot be written in any way.

*Theorems.* `Lexicon.C129_round_trip` (cqp), `Lexicon.C129_needed` (cqp)

### C130 Fields of a record — partial

The mapper gets the fields of an entry as they were written: a text, a category, and attributes with values.

*Method.* Splitting undoes joining.

*Result.* C130_fields: fields without tabs. C130_bare. C130_false: tabs and ";".

*Theorems.* `Lexicon.C130_fields` (cqp), `Lexicon.C130_bare` (p), `Lexicon.C130_false` (cqp)

### C131 Keys of the mapper — partial

What the mapper looks up for an edge depends on its text, category and attributes (those that are considered) and not on the order in which attributes were first used, and is different for different edges.

*Method.* Sorting lists with the same elements gives the same list.

*Result.* C131_key, C131_order_free. C131_false: commas. C131_partial: text and category without commas; with attributes nothing is proved about different edges.

*Theorems.* `Lexicon.C131_key` (cqp), `Lexicon.C131_order_free` (cqp), `Lexicon.C131_false` (cqp), `Lexicon.C131_partial` (cqp)

### C132 Edges of the mapper — partial

The text, category and attributes of a new edge are those of the options, of the edge or of the record, in this order of preference (for attributes: record, options, edge); cloned attributes have the values they had.

*Method.* Invariant of items (C74) through the series of strings that are set.

*Result.* C132_item, C132_unknown, C132_defined, C132_set: all but the values of cloned attributes. C132_clone_false: symbols that look like numbers; C132_clone_partial.

*Theorems.* `Lexicon.C132_item` (cqp), `Lexicon.C132_unknown` (cqp), `Lexicon.C132_set` (cqp), `Lexicon.C132_clone_false` (cqp), `Lexicon.C132_clone_partial` (cqp), `Lexicon.C132_defined` (cqp)

### C133 Number of edges of the mapper — proved

For each record found there is one new edge, in their order; if nothing is found there is one new edge if an option for unknown words is given, and none otherwise.

*Method.* Induction over the records.

*Result.* C133_found, C133_unknown.

*Theorems.* `Lexicon.C133_found` (cqp), `Lexicon.C133_unknown` (cqp)

### C134 Lexemes — partial

A lexeme made of a lemma, a plus sign and a category gives back the lemma and the category.

*Method.* Induction over the lemma.

*Result.* C134_lexeme: lemmata without a plus sign. C134_bare. C134_false.

*Theorems.* `Lexicon.C134_lexeme` (p), `Lexicon.C134_bare` (p), `Lexicon.C134_false` (cqp)

### C135 Replacement of tokens by a table — partial

A token is replaced by what the last line of the table for its text says, other tokens are not; every table can be read.

*Method.* Induction over the lines.

*Result.* C135_normalize_partial: tables with a tab in each line. C135_undefined, C135_false: exactly the others are undefined behaviour.

*Theorems.* `Lexicon.C135_normalize_partial` (cqp), `Lexicon.C135_undefined` (cqp), `Lexicon.C135_false` (cqp)

### C136 Putting tokens together — partial

All tokens are put together in the order of their surface positions, with a space between two of them unless there is a bracket or a punctuation mark that forbids it.

*Method.* The ordered map holds the last token of each position (induction); the loop writes the text of the specification (induction with the last word as state).

*Result.* C136_text: exactly which text is made. C136_partial: tokens with distinct positions, C136_positions. C136_false: tokens without a position are lost but the last.

*Theorems.* `Lexicon.C136_text` (cqp), `Lexicon.C136_partial` (cqp), `Lexicon.C136_false` (cqp), `Lexicon.C136_positions` (qp)

### C137 Hash tables of values — proved

Every sequence of calls on a hash table of the transferer is answered as a bag of values answers it, whatever the collisions, the growing of the table and the deleted slots.

*Method.* Invariant: the values in the slots are the bag, every value is reached from its hash without an empty slot in between, and a quarter of the slots is free; the odd step makes the positions run through all slots of a power of two.

*Result.* C137_bag. First sizes are powers of two, up to 2^29, and at most 2^28 calls, so that sizes stay within 32 bits.

*Theorems.* `Zval.C137_bag` (cqp)

### C138 Environments — proved

An environment answers every sequence of calls as a map does, if nothing is inserted under a key that is there.

*Method.* From the bag of pairs of C137 with distinct keys.

*Result.* C138_map, with the same bounds.

*Theorems.* `Zval.C138_map` (cqp)

### C139 Several values under a key — partial

What an environment with several values under a key answers depends only on what was done to that key.

*Method.* Witness; the bag of C137.

*Result.* C139_false: the older or the newer value is found depending on a deleted other key. C139_partial: one of the values is found.

*Theorems.* `Zval.C139_partial` (cqp), `Zval.C139_false` (p)

### C140 Loops over slots end — partial

Every call of a hash table ends, whatever its first size.

*Method.* The positions are periodic; witness.

*Result.* C140_forever: exactly when the loops never end. C140_false: tables of ten slots, which the transferer uses. C140_partial: powers of two.

*Theorems.* `Zval.C140_forever` (cqp), `Zval.C140_false` (p), `Zval.C140_partial` (cqp)

### C141 Symbols are unique — proved

Two questions for the same text get the same symbol and two questions for different texts get different ones, whatever was asked or removed in between of other texts.

*Method.* The table is the bag of C137 over texts; induction over the calls with the map from texts to symbols.

*Result.* C141_interned: at most 2^28 calls.

*Theorems.* `Zval.C141_interned` (cqp)

### C142 Removing symbols — partial

Removing a symbol returns it and makes it unknown.

*Method.* As C141.

*Result.* C142_false: NULL is returned. C142_partial: the symbol is unknown afterwards.

*Theorems.* `Zval.C142_false` (cqp), `Zval.C142_partial` (cqp)

### C143 Putting texts together — proved

Putting texts together with a space is associative, NULL and the empty text are neutral, and words come out with exactly one space between each two.

*Method.* Case analysis on the ends of the texts; induction over the words.

*Result.* C143_concat. C143_two_spaces shows texts with spaces at both sides of the seam, which get two.

*Theorems.* `Zval.C143_concat` (qp), `Zval.C143_two_spaces` (cqp)

### C144 Vectors — partial

A vector answers every sequence of calls as a list does, within its block.

*Method.* Invariant: the first slots hold the list.

*Result.* C144_false: remove writes behind the block if the vector has ten slots and nine elements. C144_partial: otherwise.

*Theorems.* `Zval.C144_false` (p), `Zval.C144_partial` (cqp)

### C145 Trees — proved

Inserting, deleting and replacing subtrees does what the functions are for: afterwards the subtrees are the expected ones in their order, each knows its tree and its place; a call fails exactly if the inserted tree is already a subtree or the named one is not.

*Method.* Refinement: the heap of trees shows a forest of lists (Shows); each call is an edit of the forest, and each edit is answered.

*Result.* C145_trees. Attributes and references are kept as in an environment that is a map (C138).

*Theorems.* `Zval.C145_trees` (cqp)

### C146 No tree is inside itself — partial

No sequence of calls makes a tree a part of itself.

*Method.* A cycle after an edit is a cycle before or runs through the new pair.

*Result.* C146_false: a tree can be put into itself. C146_partial: sequences in which that is not tried.

*Theorems.* `Zval.C146_false` (p), `Zval.C146_partial` (cqp)

### C147 References to a deleted subtree — partial

After a subtree has been deleted nothing in the tree refers to it.

*Method.* Membership in the environment after the deletions.

*Result.* C147_false: a second reference stays, and the old number behind the last. C147_partial: one reference.

*Theorems.* `Zval.C147_false` (p), `Zval.C147_partial` (cqp)

### C148 Finding a subtree — proved

The first subtree from the left or from the right with the given category and label is found, and NULL exactly if there is none.

*Method.* Induction over the subtrees from the left and from the right.

*Result.* C148_find.

*Theorems.* `Zval.C148_find` (cqp)

### C149 Inheriting an attribute — proved

A tree inherits an attribute from its first main subtree that has it, otherwise from the last subtree that has it, otherwise it gets the given value unless that is the default.

*Method.* Induction over the subtrees; setting twice is setting once.

*Result.* C149_inherit; the tree is not a subtree of itself.

*Theorems.* `Zval.C149_inherit` (qp)

### C150 Sorting subtrees — proved

Sorting by an order rearranges the subtrees so that those named earlier with < between come first; those between which the order makes no difference keep their order.

*Method.* The loop is an insertion sort of the list (invariant); it is ordered and stable; ranks count the signs <.

*Result.* C150_sort. About a named and an unnamed subtree nothing is claimed.

*Theorems.* `Zval.C150_sort` (cqp)

### C151 Equivalent trees — proved

Equivalence of trees is mutual and one to one after every assignment.

*Method.* Case analysis over the former partners.

*Result.* C151_equivalents.

*Theorems.* `Zval.C151_equivalents` (p), `Zval.C151_self` (p)

### C152 Searching an arc — proved

The search for an arc finds an arc with the symbol whenever the state has one, with few arcs (linear) and with many (binary); all ways to build an automaton keep the arcs sorted as the binary search needs them.

*Method.* Invariant of the binary search: an arc with the symbol is between the bounds; insertion is a permutation and keeps the order.

*Result.* C152_search, C152_sorted, C152_new_arc.

*Theorems.* `Dag.C152_search` (qp), `Dag.C152_sorted` (qp), `Dag.C152_new_arc` (qp)

### C153 Membership in an automaton — partial

`in` is true exactly for the words of the automaton and `prefix` exactly for the words along which one can go.

*Method.* Induction over the word; in a deterministic automaton the way along a word is unique. Witness.

*Result.* C153_in: deterministic automata with the initial state 0 (as determinize makes them). C153_in_word: soundness for all automata. C153_nondeterministic_false: otherwise words are missed.

*Theorems.* `Dag.C153_in` (qp), `Dag.C153_in_word` (qp), `Dag.C153_nondeterministic_false` (qp)

### C154 Reversing an automaton — proved

The reversed automaton has exactly the reversed words.

*Method.* The arcs of the result are characterised by folds over the states; ways are turned round by induction.

*Result.* C154_reverse.

*Theorems.* `Dag.C154_reverse` (qp)

### C155 Determinization — proved

The determinization of any automaton ends and gives a deterministic automaton with the same words, none of whose states is superfluous.

*Method.* The queue holds sets reached and each set once: the number of queued sets plus the unseen ones decreases. The building of the result is a refinement: its arcs, final states and numbering are described by the arcs added so far (Building). Words by induction.

*Result.* C155_determinize, C155_membership, C155_bound.

*Theorems.* `Dag.C155_determinize` (cqp), `Dag.C155_membership` (cqp), `Dag.C155_bound` (cqp)

### C156 Minimization — proved

Minimizing keeps the words and gives the deterministic automaton with the fewest states; automata with the same words give the same result but for the numbers of the states.

*Method.* Brzozowski: if the automaton before the last two steps is deterministic and accessible, two sets with the same words have the same elements. The state a word leads to is mapped to the state it leads to in the other automaton; this is injective.

*Result.* C156_minimize, C156_unique.

*Theorems.* `Dag.C156_minimize` (cqp), `Dag.C156_unique` (cqp)

### C157 Union of automata — proved

The union has exactly the words of both automata, and the deterministic union is the minimal automaton of these words.

*Method.* Invariant of the copying: a partial injective map of the states, arcs, final and initial states copied so far (Joining).

*Result.* C157_union, C157_det_union; an automaton is not joined with itself in place.

*Theorems.* `Dag.C157_union` (cqp), `Dag.C157_det_union` (cqp)

### C158 The hash of a word — proved

After the numbering of the arcs the hash of a word is its place in the sorted list of all words of the automaton; what is no word has no hash. So the hash is a perfect minimal hash.

*Method.* Invariant of the recursive numbering: the weights behind the states seen are the numbers of words of the arcs before; the sum along the path is the number of words up to it. Order of the words by induction.

*Result.* C158_hash, C158_dictionary; automata without cycles whose arcs are in order (as compress makes them).

*Theorems.* `Dag.C158_hash` (cqp), `Dag.C158_dictionary` (cqp)

### C159 Back from the hash — proved

`unhash` gives for the numbers 1 to the number of words the word with this hash, and the empty word for other numbers.

*Method.* Both searches find the last arc whose weight is smaller; induction over the word with the remaining number.

*Result.* C159_unhash, C159_back.

*Theorems.* `Dag.C159_unhash` (cqp), `Dag.C159_back` (cqp)

### C160 Intersection of automata — proved

The intersection ends and gives a deterministic automaton that has exactly the words of both.

*Method.* Invariant of the queue of pairs: arcs, final states and numbering are those of the pairs processed (Pairing); merging two sorted rows finds the common symbols.

*Result.* C160_intersect.

*Theorems.* `Dag.C160_intersect` (cqp)

### C161 Enumerating subsets — partial

Calling `nextksb` again and again gives each subset of 1…n with k elements exactly once, in lexicographic order, and stays within the list.

*Method.* Between the calls the list is a prefix with a run of consecutive numbers; the next list is the least greater one, by cases; the number in base n+2 grows.

*Result.* C161_subsets_partial: for 1 ≤ k ≤ n. C161_too_many_false: for k > n a list that is no subset is given and then the list is read outside.

*Theorems.* `Dag.C161_subsets_partial` (cqp), `Dag.C161_too_many_false` (qp)

### C162 Rules of limited length — partial

Pruning an automaton by the intersector keeps exactly the rules that are not longer than allowed and have not more nonterminals than allowed.

*Method.* The partial automata are chains (Chain); their union over the subsets is described by the number of ones; the product with the automaton maps symbols to kinds.

*Result.* C162_prune_partial: at most as many nonterminals as symbols. C162_wide_false: with wider limits words are lost or the list is read outside.

*Theorems.* `Dag.C162_prune_partial` (cqp), `Dag.C162_wide_false` (p)

### C163 Hashing all words of an automaton — partial

`multihash` gives each word that both automata have exactly once, with its hash.

*Method.* Invariants: the words of a pair lead to it, their last symbol came from a pair processed before; with one length for each pair the queue is in the order of the lengths, so all words of a pair have come when it is processed. Witness.

*Result.* C163_multihash_partial: soundness always; completeness if each pair of states is reached by words of one length only. C163_loses_false: else words are lost.

*Theorems.* `Dag.C163_multihash_partial` (cqp), `Dag.C163_loses_false` (cqp)

### C164 The automaton of sorted words — proved

For words in strictly increasing order, none of them empty, the incremental construction ends, writes no line twice, and the automaton of the lines it writes has exactly these words, although states are written and forgotten while words are still being added.

*Method.* Refinement: the tables hold a register of finished states and the path of the last word (Rep); taking states from the path, a new branch and purging keep this and the words (Grow, Refine). Numbers may be used again, as all registered states above a replaced state are reached from its transitions, which the register has already (Inv.smaller).

*Result.* C164_words.

*Theorems.* `Minfsa.C164_words` (cqp)

### C165 The automaton of sorted words is minimal — proved

The automaton written is deterministic, its states are numbered from 0 without gaps, every state is reached and leads to an end, no two states have the same words, and no deterministic automaton with the same words has fewer states.

*Method.* Registered states with the same words are one, by induction on a rank (distinct); the start differs by the longest word; the states of another automaton are reached by the same words, which is injective.

*Result.* C165_deterministic, C165_minimal, C165_trim.

*Theorems.* `Minfsa.C165_deterministic` (cqp), `Minfsa.C165_minimal` (cqp), `Minfsa.C165_trim` (cqp)

### C166 Words that are not strictly sorted — proved

A word that is the last word again or begins it, no words at all, and the empty word lead to undefined behaviour; words in another order may give an automaton with other words.

*Method.* The walk along the path of the last word ends with the word (deltaPrefix_none). Witness.

*Result.* C166_prefix, C166_empty; C166_unsorted_false: the construction is not right for all lists of words.

*Theorems.* `Minfsa.C166_prefix` (cqp), `Minfsa.C166_empty` (qp), `Minfsa.C166_unsorted_false` (qp)

### C167 Items of a memory pool do not overlap — partial

A memory pool whose items are only freed and written to while in use always gives another item that is not in use; the items in use are inside the blocks, begin at multiples of 8 and do not overlap; there is a new block only if all items are used, and a freed item is given next. A pool can be made iff its blocks have items. Storage gives memory of all sizes and takes it back.

*Method.* Invariant: the chain through the memory from the free list, with the items in use, is a permutation of all items of the blocks (PoolInv).

*Result.* C167_new, C167_allocate, C167_apart, C167_reuse, C167_doublefree (misuse). Of storage: C167_storage_false (sizes greater than the size of blocks, and 0), C167_storage_partial for the other sizes; C167_leak_false (large memory is never given back).

*Theorems.* `Irstlm.C167_new` (cqp), `Irstlm.C167_allocate` (cqp), `Irstlm.C167_apart` (cqp), `Irstlm.C167_reuse` (–), `Irstlm.C167_doublefree` (qp), `Irstlm.C167_storage_false` (p), `Irstlm.C167_storage_partial` (cqp), `Irstlm.C167_leak_false` (qp)

### C168 Strings on the stack stay where they are — partial

The pointers returned by push keep pointing to their strings, at different places, while further strings are pushed and popped; push fails iff the string does not fit into a block; top and pop give the pointer of the last string.

*Method.* Invariant: each block is its strings with their zeros and then zeros (StackInv); the two loops back find the beginning of the last string.

*Result.* C168_read, C168_push, C168_empty in full. C168_pop_partial for strings that are not empty and have more than one character at the beginning of a block; C168_pop_false is the witness that this is needed; C168_emptied_false.

*Theorems.* `Irstlm.C168_read` (cqp), `Irstlm.C168_push` (cqp), `Irstlm.C168_empty` (cqp), `Irstlm.C168_pop_partial` (cqp), `Irstlm.C168_pop_false` (p), `Irstlm.C168_emptied_false` (qp)

### C169 Hash tables find the first key with a value — proved

After entering keys, searching gives the first key with the value, for every hash function; entering a key gives the key that was there or adds it; scanning gives the first key of each value once and then null.

*Method.* Invariant: the chains together are the first keys of the values, each in the chain of its hash (TableInv).

*Result.* C169_find, C169_scan for all tables with chains; C169_zero_false: no chains are a division by zero.

*Theorems.* `Irstlm.C169_find` (cqp), `Irstlm.C169_scan` (cqp), `Irstlm.C169_zero_false` (p)

### C170 Codes of words — proved

In a dictionary, a word has the code of its first entry and other words have none; words are there once, except for <unk>; known words are encoded as their codes; an open dictionary gives a new word the next code, unless it is too long; decoding a code gives the word, and <unk> for other numbers; this also holds after the tables have grown.

*Method.* Invariant on reachable dictionaries (DictInv): codes are places, the table has the first places of the words, there is room.

*Result.* C170_getcode, C170_once, C170_known, C170_new, C170_decode, C170_roundtrip for sizes from 5; C170_small_false: smaller ones have no chains.

*Theorems.* `Irstlm.C170_getcode` (cqp), `Irstlm.C170_once` (cqp), `Irstlm.C170_known` (cqp), `Irstlm.C170_new` (cqp), `Irstlm.C170_decode` (cqp), `Irstlm.C170_roundtrip` (cqp), `Irstlm.C170_small_false` (cqp)

### C171 Unknown words in a closed dictionary — partial

In a closed dictionary an unknown word is encoded as the code for unknown words, which is the code of <unk>; the entry for <unk> is made if there is none.

*Method.* The recursion finds <unk> in the second call; an induction on the depth for the endless case. Witness by evaluation.

*Result.* C171_closed_partial if the code for unknown words is that of <unk> (OovRight). C171_twice_false, C171_endless_false, C171_oovrate_false otherwise.

*Theorems.* `Irstlm.C171_closed_partial` (cqp), `Irstlm.C171_twice_false` (cqp), `Irstlm.C171_endless_false` (cqp), `Irstlm.C171_oovrate_false` (cqp)

### C172 The dictionary of a text — partial

Generating a dictionary from a text gives the words between white space in the order of their first occurrences, with the numbers of their occurrences, without interruption symbols, and the total number.

*Method.* Induction on the text; what has been read so far is counted (Counted).

*Result.* C172_generate_partial for words of at most 999 characters; C172_long_false: longer words are split.

*Theorems.* `Irstlm.C172_generate_partial` (cqp), `Irstlm.C172_long_false` (cqp)

### C173 Saving and loading a dictionary — partial

A dictionary that is saved and loaded has the same words with the same codes and frequencies, the total is the sum of the frequencies, and the code for unknown words is that of <unk>; a file in which a word is repeated is refused.

*Method.* Reading back decimal numbers and words; induction on the entries.

*Result.* C173_roundtrip_partial for different words of less than 999 characters, C173_repeated. C173_unk_false, C173_long_false.

*Theorems.* `Irstlm.C173_roundtrip_partial` (cqp), `Irstlm.C173_repeated` (cqp), `Irstlm.C173_unk_false` (cqp), `Irstlm.C173_long_false` (cqp)

### C174 Copies of dictionaries — partial

A copy of a dictionary has the same words with the same frequencies under new codes, finds its words, and the code for unknown words is that of the same word; a sorted copy is ordered by decreasing frequencies, then by words.

*Method.* The codes are numbered anew; the table is entered in order. Arithmetic of the truncated difference.

*Result.* C174_copy in full; C174_sorted_partial if frequencies differ by less than 2^31; C174_order_false, C174_cycle_false otherwise; C174_oovlex_false.

*Theorems.* `Irstlm.C174_copy` (cqp), `Irstlm.C174_sorted_partial` (cqp), `Irstlm.C174_order_false` (cqp), `Irstlm.C174_cycle_false` (cqp), `Irstlm.C174_oovlex_false` (cqp)

### C175 Escaping of texts for the patterns of puddle — partial

Escaping a text leaves nothing that means something in a pattern, keeps different texts different and replaces each character by its HTML reference; unescaping gives the text again.

*Method.* Each replacement acts on a text made of tokens (characters and references) one token at a time; induction on the tokens.

*Result.* C175_clean, C175_injective in full. C175_references_partial and C175_back_partial: plus and asterisk are exchanged, and some references that are in the text itself are replaced (C175_references_false, C175_back_false); C175_plain.

*Theorems.* `Puddle.C175_clean` (qp), `Puddle.C175_injective` (qp), `Puddle.C175_references_partial` (qp), `Puddle.C175_references_false` (–), `Puddle.C175_back_false` (–), `Puddle.C175_back_partial` (qp), `Puddle.C175_plain` (qp)

### C176 From the elements of a rule to the tokens — partial

The ranges of tokens for the elements of a rule are those of the tokens that the elements have matched; the head of a group is at the tokens of its element, and if the element has matched nothing there is no group; a head outside of the group is refused.

*Method.* Sums of prefixes of the sizes (upTo); induction on the sizes with the place as a parameter.

*Result.* C176_span, C176_before, C176_group, C176_kept in full. C176_head_partial without left context, C176_head_false with one; C176_kept_false: heads outside of the group; C176_outside.

*Theorems.* `Puddle.C176_span` (cqp), `Puddle.C176_before` (cqp), `Puddle.C176_outside` (qp), `Puddle.C176_group` (cqp), `Puddle.C176_head_partial` (cqp), `Puddle.C176_head_false` (–), `Puddle.C176_kept` (qp), `Puddle.C176_kept_false` (qp)

### C177 Moving and deleting rules — proved

A rule that is moved gets its new place and the others keep their order, moving it back undoes this; deleting takes out just one rule, or none for a wrong number.

*Method.* List surgery by cases on the direction.

*Result.* C177_move, C177_back, C177_delete; C177_end: a rule cannot be moved behind the last one.

*Theorems.* `Puddle.C177_move` (cqp), `Puddle.C177_end` (qp), `Puddle.C177_back` (cqp), `Puddle.C177_delete` (cqp)

### C178 When a rule is applied — partial

A rule is applied if and only if the tests of all its actions agree; the numbers of tokens only change for the last element, which keeps what it needs; all actions are run in their order.

*Method.* Induction on the actions.

*Result.* C178_agree, C178_sizes, C178_all in full. C178_agree_partial: only if, for rules whose last element has no token to spare; C178_agree_false otherwise.

*Theorems.* `Puddle.C178_agree` (p), `Puddle.C178_agree_false` (p), `Puddle.C178_agree_partial` (cqp), `Puddle.C178_sizes` (cqp), `Puddle.C178_all` (qp)

### C179 Proper morphology labels of a tagset — partial

A label is proper if and only if it is that of a part of speech with a value for each of its attributes, where optional ones can be left out, in the order in which the tagset declares them.

*Method.* The maps after some attributes are the insertions of the choices (fold_labels); a sorted permutation is unique.

*Result.* C179_labels says which labels are proper: the values are in the order of the names of their attributes. C179_order_partial: this is the order of the declaration if attributes are declared in the order of their names. C179_order_false otherwise.

*Theorems.* `Puddle.C179_labels` (cqp), `Puddle.C179_order_partial` (cqp), `Puddle.C179_order_false` (p)

### C180 Reading the attributes from a label — partial

From the label of a choice of values just these values and the part of speech are read; what is read from any label are values in it of attributes that can have them; all values that are known are read; labels with an unknown part of speech are handled.

*Method.* Induction on the choice; splitting the label at colons.

*Result.* C180_read (choices that leave nothing open), C180_sound in full. C180_all_false: after an unknown value the others are lost, and so are those of proper labels. C180_unknown_false, C180_unknown_partial.

*Theorems.* `Puddle.C180_read` (cqp), `Puddle.C180_sound` (cqp), `Puddle.C180_all_false` (p), `Puddle.C180_unknown_false` (–), `Puddle.C180_unknown_partial` (cqp)

### C181 Whether tokens can be unified — partial

The test of the unify action succeeds if and only if for each attribute there is a value that all tokens with values of the attribute have; tokens without values do not matter.

*Method.* Invariant of the fold: empty, or the common value is in it.

*Result.* C181_common, C181_nulls in full. C181_only_partial if at most two tokens have values, C181_only_false with three.

*Theorems.* `Puddle.C181_common` (qp), `Puddle.C181_only_partial` (qp), `Puddle.C181_only_false` (p), `Puddle.C181_nulls` (cqp)

### C182 What unifying keeps and discards — partial

Unifying keeps the sequences with a reading of each token that have the same values, and discards the readings of the tokens that are in none of them.

*Method.* Induction on the tokens with the sequences so far (keepLoop_eq).

*Result.* C182_kept says what is kept. C182_agree_partial if all readings have values; C182_null, C182_agree_false otherwise. C182_discarded_partial and C182_kept_stay if each index refers to one token; C182_discarded_false otherwise.

*Theorems.* `Puddle.C182_kept` (cqp), `Puddle.C182_agree_partial` (cqp), `Puddle.C182_null` (cqp), `Puddle.C182_discarded_partial` (cqp), `Puddle.C182_kept_stay` (cqp), `Puddle.C182_discarded_false` (p), `Puddle.C182_agree_false` (p)

### C183 Partitions after unifying — proved

The partitions of a rule after unifying are those that go through a sequence that is kept, or all if there are none; a partition contains edges iff they are in it.

*Method.* Induction on the partition.

*Result.* C183_partitions, C183_unified for partitions of which no two edges begin at the same vertex.

*Theorems.* `Puddle.C183_partitions` (qp), `Puddle.C183_unified` (cqp)

### C184 Deleting readings — partial

The delete action discards just the readings of its tokens that meet all its conditions, and its test says whether there are any.

*Method.* Unfolding, by cases on the conditions; induction for the loop that never notes a failure.

*Result.* C184_delete says what is discarded for all conditions; C184_delete_partial for one condition on the morphology is the property; C184_all_false otherwise. C184_test: the test does not depend on the conditions.

*Theorems.* `Puddle.C184_delete_partial` (qp), `Puddle.C184_delete` (qp), `Puddle.C184_all_false` (cqp), `Puddle.C184_test` (qp)

### C185 Enumerating the words of an automaton — partial

The words that are enumerated up to a length are just the accepted words of at most this length; for a deterministic automaton each comes once and in lexicographic order.

*Method.* Induction on the fuel with the label of the path so far.

*Result.* C185_language (labels of paths), C185_sorted in full. C185_accepted_partial without epsilon transitions; C185_accepted_false: otherwise the symbol of epsilon is in the words.

*Theorems.* `Fsa.C185_language` (qp), `Fsa.C185_accepted_partial` (qp), `Fsa.C185_accepted_false` (qp), `Fsa.C185_sorted` (qp)

### C186 The tables of the CRC — proved

The tables that are made are those in crc32.h; their entries are the remainders of a byte followed by zero to three bytes of zeros, divided by the polynomial; the table of 7z is the first of them.

*Method.* The eight steps for a byte are linear; a step is a multiplication by x modulo the polynomial (toPoly_bitStep). The stored tables are compared by evaluation in the kernel.

*Result.* C186_stored (a finite check of 2048 entries), C186_remainder, C186_seven.

*Theorems.* `Zlib.C186_stored` (qp), `Zlib.C186_remainder` (cqp), `Zlib.C186_seven` (qp)

### C187 The CRC-32 of a message — proved

crc32 gives the CRC-32 of a message (the remainder of a division of polynomials), on machines with both orders of bytes, with and without the processing by words, for buffers at all addresses; so does CrcCalc; without a buffer the CRC of the empty message is given.

*Method.* A byte is eight steps of a linear register, a word four bytes (four_table); for the other order of bytes the register is reversed (bigByte_eq, doBig4_eq). Induction on the message gives the congruence of the register; its degree is below 32, so it is the remainder.

*Result.* C187_crc, C187_unique, C187_seven, C187_null.

*Theorems.* `Zlib.C187_unique` (cqp), `Zlib.C187_crc` (cqp), `Zlib.C187_null` (cqp), `Zlib.C187_seven` (cqp)

### C188 The CRC-32 of a message in parts — partial

From the CRC of the first part crc32 gives that of the whole message; from the CRCs of both parts and the length of the second crc32_combine gives it; crc32_combine returns for all lengths.

*Method.* Matrices represent linear operators, their squares the operators applied twice (gf2Square_eq); induction on the bits of the length.

*Result.* C188_parts and C188_combine in full. C188_ends_partial for lengths that are not negative; C188_ends_false otherwise.

*Theorems.* `Zlib.C188_parts` (cqp), `Zlib.C188_combine` (cqp), `Zlib.C188_ends_false` (cqp), `Zlib.C188_ends_partial` (cqp)

### C189 Errors that the CRC-32 notices — proved

Two different messages of the same length that differ only within 32 successive bits do not have the same CRC.

*Method.* The polynomial and x are coprime, so the polynomial would divide a difference of lower degree.

*Result.* C189_burst, C189_bytes.

*Theorems.* `Zlib.C189_burst` (cqp), `Zlib.C189_bytes` (cqp)

### C190 The Adler-32 checksum — partial

adler32 gives the checksum of a message, from that of a first part the checksum of the whole; no sum overflows 32 bits although remainders are only taken every 5552 bytes; without a buffer the checksum of the empty message is given.

*Method.* The sums without overflow are an explicit formula (exact_fst, exact_snd), which is bounded for 5552 bytes; congruences modulo 65521.

*Result.* C190_adler, C190_parts in full. C190_null_partial unless the length is one, C190_null_false.

*Theorems.* `Zlib.C190_parts` (cqp), `Zlib.C190_adler` (cqp), `Zlib.C190_null_partial` (–), `Zlib.C190_null_false` (p)

### C191 Combining two Adler-32 checksums — partial

From the checksums of two parts and the length of the second adler32_combine gives the checksum of the whole message.

*Method.* Formula for the weighted sum of a concatenation; linear arithmetic for the conditional subtractions.

*Result.* C191_combine says what is computed in all cases; C191_combine_partial if no sum of the whole message is zero; C191_combine_false otherwise.

*Theorems.* `Zlib.C191_combine` (cqp), `Zlib.C191_combine_partial` (cqp), `Zlib.C191_combine_false` (cqp)

### C192 Errors that the Adler-32 checksum notices — proved

A change of one byte is noticed; an exchange of two different bytes is noticed if and only if their distance is not a multiple of 65521.

*Method.* The difference of the sums is the distance times the difference of the bytes; 65521 is prime.

*Result.* C192_byte, C192_swap.

*Theorems.* `Zlib.C192_byte` (cqp), `Zlib.C192_swap` (cqp)

### C193 Which lengths of codes inflate accepts — proved

inflate_table refuses a set of lengths exactly when it is over-subscribed or incomplete, except that no codes at all and (but for the lengths of codes) a single code of one bit are accepted; for no set does it write outside the tables or fail to return.

*Method.* What is left after each length is 2^l minus the end of the codes of this length (leftLoop_spec); the end for 15 is the sum of Kraft (endCode_kraft). The main loop keeps an invariant (step_good).

*Result.* C193_refused, C193_no_wild; C193_empty_codes: what becomes of a set of lengths of codes that are all zero.

*Theorems.* `Zlib.C193_refused` (cqp), `Zlib.C193_no_wild` (cqp), `Zlib.C193_empty_codes` (cqp)

### C194 Decoding with the tables of inflate — proved

If the input begins with the code of a symbol (by the algorithm of RFC 1951), the tables give this symbol and just the bits of its code are used up, no matter how many bits are in the buffer at first and how many bytes have to be pulled; if the input ends within the code, more is asked for; if it begins with no code, this is found out.

*Method.* Reversed codes are incremented as numbers (backInc_spec); counting sort (sort_aux); the invariant of the main loop says where each entered code is found (found_entered, inv_new), the look-ahead that codes of a further table fit into it (lookAhead_spec, fits_next). Entries depend only on the bits they take (made_stable), hence the early comparison is right (takeEntry_spec).

*Result.* C194_decodes, C194_needs_more, C194_no_code, C194_one_code (codes are not beginnings of each other; complete codes cover all streams).

*Theorems.* `Zlib.C194_decodes` (cqp), `Zlib.C194_needs_more` (cqp), `Zlib.C194_no_code` (cqp), `Zlib.C194_one_code` (cqp)

### C195 The space for the tables of inflate is enough — proved

For up to 288 codes of literals and lengths and nine root bits inflate_table never reports that the space is not enough; the tables of a block never take more than the 2048 entries of the array, and nothing is written behind what is reported as used.

*Method.* A further table that begins a bits below the root gets at least 2^a symbols (room_done), and begins not above the end of the last one; the sum telescopes to the number of symbols and the size of the last table (Room, offsets_room).

*Result.* C195_bound, C195_enough, C195_fit.

*Theorems.* `Zlib.C195_bound` (cqp), `Zlib.C195_enough` (cqp), `Zlib.C195_fit` (cqp)

### C196 The lengths and distances of matches — proved

The numbers that the length symbols can stand for are just 3 to 258, those of the distance symbols just 1 to 32768; the tables of base values and extra bits are those of RFC 1951.

*Method.* Each code takes up where the last one ends; evaluation for the 29 and 30 symbols.

*Result.* C196_lengths, C196_distances.

*Theorems.* `Zlib.C196_lengths` (cqp), `Zlib.C196_distances` (cqp)

### C197 The fixed tables of inflate — proved

The tables that are written out in inffixed.h decode the fixed codes of RFC 1951: each stream that begins with the code of a symbol finds an entry with the length of the code and the meaning of the symbol.

*Method.* Evaluation in the kernel for all 512 and 32 indices; uniqueness of the symbol a stream begins with.

*Result.* C197_lengths, C197_distances (a finite check of 544 entries, extended to all streams); C197_marks: where built and stored tables differ.

*Theorems.* `Zlib.C197_lengths` (cqp), `Zlib.C197_distances` (cqp), `Zlib.C197_marks` (p)

### C198 The output of inflate over many calls — proved

However the input and the output space are cut into calls of inflate, and whichever commands go through inflate_fast, what is written is just what the literals, stored blocks and copies of the stream mean (copying byte after byte from the whole output so far, own bytes included); each byte is written as soon as there is space for it, nothing outside the window and the output is read, and the error for a distance is reported exactly when it goes back before the beginning. This is claimed for the windows of 32768 bytes that the program uses, and for smaller windows if no distance is greater than the window.

*Method.* Invariant: the window holds the last bytes of the output (Holds), kept by updatewindow in each of its three ways (updatewindow_spec); a run of bytes in the window is a run of the output (window_run), so each copy is a part of copyBack (matchOnce_spec, fastCopy_spec); what is still to come does not change (Kept, call_spec, inflateCall_spec).

*Result.* C198_full_window (window of 32768 bytes), C198_calls (any window that all distances fit in); C198_small_window_false: without this a window of 256 bytes leads to a read before the window.

*Theorems.* `Zlib.C198_calls` (cqp), `Zlib.C198_full_window` (cqp), `Zlib.C198_small_window_false` (qp)

### C199 The window of inflate holds the last bytes — proved

After each call of inflate that has not met an error the window holds the last bytes of the whole output, as many as fit, the byte k back being k places before the write position around the end of the window.

*Method.* The invariant Holds of C198, written with a remainder.

*Result.* C199_window.

*Theorems.* `Zlib.C199_window` (cqp)

### C200 A preset dictionary — proved

After inflateSetDictionary on a fresh stream the output goes on as if the dictionary had been written before: copies may go back into it, over the border, and further back than its beginning is an error; windows as in C198.

*Method.* The window after the dictionary meets the invariant (setDictionary_spec), although whave may become greater than the window later.

*Result.* C200_dictionary (any window that all distances fit in, hence all commands with 32768 bytes); C200_small_window_false: without this a wrong byte is copied.

*Theorems.* `Zlib.C200_dictionary` (cqp), `Zlib.C200_small_window_false` (qp)

### C201 The head of a dynamic block — proved

From the head of a dynamic block inflate builds the tables of exactly those code lengths that the input gives (three numbers, the lengths of the code for lengths in their order, then the lengths of both codes as one sequence with repetitions that may go over the border between them), and leaves just the input behind the head, less than a byte of it in the bit buffer; it asks for more input exactly when the input ends within the head, and refuses exactly: too great numbers, codes that cannot be used, a repetition without a length before it, and repetitions that go too far. What is in memory from a block before plays no role.

*Method.* The bit buffer and the bytes to come make one number (Bits.stream); each NEEDBITS keeps it and each DROPBITS divides it (need_some, bits_drop); induction over the relation Lengths for CODELENS (codeLens_spec) and over the places for LENLENS (lenLens_spec, zeroLens_spec); tables by C193 and C195.

*Result.* C201_got, C201_more, C201_bad; C201_outcome: each input is one of the three. Heads in which all lengths of the code for lengths are zero: each bit counts as a length of zero (RFC 1951 says nothing about them; with such lengths no code of the block is in use).

*Theorems.* `Zlib.C201_got` (cqp), `Zlib.C201_more` (cqp), `Zlib.C201_bad` (cqp), `Zlib.C201_outcome` (cqp)

### C202 The commands of a block — proved

With the tables for two codes inflate reads from the input exactly the commands (bytes and copies, up to the end of the block) that the input gives in these codes, with the extra bits of lengths and distances; it stops for more input exactly where the input ends within a command, and reports an error exactly where a code is not in use or means nothing. This holds for the tables it builds for any code lengths that it accepts and for the fixed tables that are written out in the source.

*Method.* Both tables read what their code says (Reads; made_reads from C193–C195, fixed_reads by C194 for the fixed tables); each state keeps the stream (need_some, bits_drop); induction over the relation Commands (takeCommands_spec).

*Result.* C202_commands (tables of inflate_table), C202_fixed (tables of inffixed.h), C202_outcome: every input says something.

*Theorems.* `Zlib.C202_commands` (cqp), `Zlib.C202_fixed` (cqp), `Zlib.C202_outcome` (cqp)

### C203 The blocks of a stream — proved

From a raw deflate stream inflate reads exactly the commands that its blocks (stored, with fixed codes, with dynamic codes; up to the last one) give, and leaves exactly the bytes behind the last block; it asks for more input or reports an error exactly where the stream is cut or wrong. Each input is one of the three, all commands are in the ranges that their execution relies upon, and what is written over any number of calls is what the blocks mean.

*Method.* Induction over the relation Blocks (takeBlocks_spec) with C201 for heads and C202 for commands; stored blocks by streamOf_drop and bytesOf_stream; C203_output from C198.

*Result.* C203_stream, C203_outcome, C203_sane, C203_output. That inflate_fast reads the same is C209, and that the stream may come in pieces is C213. The flush modes Z_BLOCK and Z_TREES, which the program does not use, are not modelled.

*Theorems.* `Zlib.C203_stream` (cqp), `Zlib.C203_outcome` (cqp), `Zlib.C203_sane` (qp), `Zlib.C203_output` (cqp)

### C204 The head of a gzip file — proved

For gzip input inflate accepts exactly the heads that RFC 1952 describes (fixed bytes, method, no unknown flags, six bytes, then extra field, name, comment and the lower half of the CRC of the head, each if its flag is set) and goes on exactly behind them; where a head ends is determined by what it is, and what is refused is refused whatever follows.

*Method.* Stage by stage backwards: each state accepts exactly what the rest of the head may be (gzHcrc_iff … gzTime_iff), with the invariant that the check value is the CRC of what was consumed (sum_crcIf, C188); uniqueness since the states are functions.

*Result.* C204_head (both directions), C204_unique, C204_refused. That the input may come in pieces is C214; the copying of fields into a gz_header, which the program does not ask for, is not modelled.

*Theorems.* `Zlib.C204_head` (cqp), `Zlib.C204_unique` (cqp), `Zlib.C204_refused` (cqp)

### C205 The end of a gzip file — proved

However the content was written in pieces, inflate accepts exactly the end that is the CRC-32 of the content and its length modulo 2^32, four bytes each, and leaves exactly what is behind it; any other eight bytes are refused.

*Method.* updateAll_crc: the check value is the CRC of all pieces (C188_parts); word_iff: a word that is read and its bytes; C187_unique.

*Result.* C205_tail, C205_refused.

*Theorems.* `Zlib.C205_tail` (cqp), `Zlib.C205_refused` (cqp)

### C206 Members of gzip files — proved

Inflate accepts exactly the inputs that begin with a member of a gzip file (head, blocks, and the CRC and the length of what the blocks mean), leaves exactly the bytes behind it, writes exactly its content over any number of calls, and refuses members with another CRC or length.

*Method.* C204, C203 and C205 one behind the other; behind the last block the bit buffer is empty (blocks_whole, stream_rest), so that the rest is determined as bytes (streamOf_inj).

*Result.* C206_accepts, C206_sound, C206_damaged, C206_content. That inflate_fast reads the same is C209. That the file may come in pieces is C214. Only one member is read, what follows is left (Zlib_Inflater does not go on with it either).

*Theorems.* `Zlib.C206_accepts` (cqp), `Zlib.C206_sound` (cqp), `Zlib.C206_damaged` (cqp), `Zlib.C206_content` (cqp)

### C207 Files that are not compressed — partial

Whatever the sizes of the buffer and of the first read (as long as it fits into the buffer) and whatever numbers of bytes are asked for, the calls of Zlib_Inflater::read for a file that is not compressed give the bytes of the file one behind the other, each as many as it was asked for or all that were left, and never loop. Files are taken for compressed exactly if they have at least 18 bytes and begin with the two bytes of gzip files.

*Method.* Invariant between calls (Inv): behind the buffered bytes the buffer is at its end unless the file is; the loop by induction over its fuel, which the length of the file bounds (copyLoop_spec).

*Result.* C207_copy, C207_default, C207_detects. C207_sizes_false: a first read that does not fit into the buffer (4096 bytes when nothing is said) goes to before the buffer; no caller does this. Errors of reading are not modelled. The loop for compressed files is C215.

*Theorems.* `Fex.C207_copy` (cqp), `Fex.C207_default` (cqp), `Fex.C207_sizes_false` (p), `Fex.C207_detects` (qp)

### C208 The size of a gzip file — partial

For a gzip file Gzip_Reader::open takes the file for compressed and says the size and the CRC of its content. (For several members this is false: size and CRC are those of the last one.)

*Method.* What is left behind the blocks is a suffix of the input (took_blocks, by induction over all relations of the stream; blocks_suffix), so the last eight bytes are the end of the last member; getLe32_bytes.

*Result.* C208_size_false (two members); C208_size_partial: one member with less than 2^31 bytes; C208_last_partial: what is said for several members.

*Theorems.* `Fex.C208_size_partial` (cqp), `Fex.C208_last_partial` (cqp), `Fex.C208_size_false` (cqp)

### C209 The fast decoding — proved

Wherever there is input and space enough and inflate calls inflate_fast, the commands that are read and what is left of the input are exactly the same as if each command were read by the states of inflate: inflate_fast reads nothing behind the input and writes nothing behind the output, never has more than 32 bits in its buffer, and gives back exactly those bytes that it read too much. So the same holds for whole streams, however much space there is at each time.

*Method.* With 15 bits in the buffer the code is determined by them (FastReads.code): without further input takeCode and the fast lookup find the same entry (fast_of_take), as links and operations are told apart alike for all entries of the tables (good_link, good_kind, link_fast); 48 bits suffice for a command (fastCommand_spec); the position is known by the number of bits (Took, giveBack_spec); a bit buffer with less than eight bits is determined by the rest of the stream (bits_eq).

*Result.* C209_same (tables of inflate_table), C209_fixed (tables of inffixed.h), C209_stream (whole streams), C209_follows (with C203). The copying in inflate_fast is in C198.

*Theorems.* `Zlib.C209_same` (cqp), `Zlib.C209_fixed` (cqp), `Zlib.C209_stream` (cqp), `Zlib.C209_follows` (cqp)

### C210 Input in pieces — proved

However the input of a block is divided among the calls of inflate (in the middle of codes or of extra bits, with empty pieces), the commands that the calls read, whether they end with an error or for want of input, and what is left of the input are exactly the same as if the whole input were there in one call. This holds wherever inflate_fast is called, also when it is called with a whole byte or more in the bit buffer (a code was begun in the call before), although its comment assumes less than eight bits there: it never gives back bytes of an earlier piece.

*Method.* For each mode a relation says what the rest of the input means there; what a call does is said by its input whatever follows (induction over the steps), and the calls compose. The bit buffer between calls: less than eight bits, or a code (or extra bits) for which its bits do not suffice, so the next code uses more than all but seven of them.

*Result.* C210_pieces (tables of inflate_table), C210_fixed (tables of inffixed.h), C210_commands (with C202). Stored blocks are C211, heads C212, whole streams C213.

*Theorems.* `Zlib.C210_pieces` (cqp), `Zlib.C210_fixed` (cqp), `Zlib.C210_commands` (cqp)

### C211 Stored blocks in pieces — proved

However a stored block is divided among the calls of inflate (also within the two numbers at its beginning, with empty pieces), the bytes that are written, whether the calls end with an error or for want of input, and what is left of the input are exactly the same as if the whole block were there in one call, and so what the input as a whole says; that the bits up to the next byte are dropped again at each call drops nothing of the numbers.

*Method.* Between the calls the bit buffer is a list of less than four whole bytes (induction over the pieces); NEEDBITS(32) takes four bytes, wherever the buffer ends.

*Result.* C211_stored (as in one piece), C211_copy (the bytes), C211_block (with the specification of stored blocks of C203).  There is space for all bytes; calls that are left for want of space are in C198.

*Theorems.* `Zlib.C211_copy` (qp), `Zlib.C211_stored` (cqp), `Zlib.C211_block` (cqp)

### C212 Heads of dynamic blocks in pieces — proved

However the head of a dynamic block is divided among the calls of inflate (within its numbers, within the lengths of the code for lengths, within a code or the count of a repetition, with empty pieces), the tables that are built, whether the head is refused or more input is asked for, and what is left of the input are exactly the same as if the whole head were there in one call. (A code whose count is cut is looked up again at the next call, with more bits in the buffer: it is the same code.)

*Method.* A step with more input behind it is the same step, or, where it waits, the step that is made when the call is made again with the pulled bits (headStep_app; entries of the table depend on their own bits only); calls compose (runHead_app), and the steps with all input are readHeader (table_read).

*Result.* C212_same (as in one piece), C212_got, C212_more, C212_bad (with the specification of heads of C201).

*Theorems.* `Zlib.C212_same` (cqp), `Zlib.C212_got` (cqp), `Zlib.C212_more` (cqp), `Zlib.C212_bad` (cqp)

### C213 Streams in pieces — proved

However a raw deflate stream is divided among the calls of inflate, and wherever inflate_fast is called, what is written is exactly what the blocks of the stream as a whole mean, an error is reported or more input is asked for exactly where the stream as a whole is wrong or cut, and at the end exactly the bytes behind the last block are left.

*Method.* The parts (C210, C211, C212) with what is left for the next block, by induction over the blocks; contents of stored blocks are compared as single bytes, which mean the same.

*Result.* C213_stream (as in one piece; the content of a stored block counts as single bytes), C213_follows (with the specification of streams of C203), C213_output (what the calls write). Calls that are left for want of space are in C198; the flush modes Z_BLOCK and Z_TREES are not modelled.

*Theorems.* `Zlib.C213_stream` (cqp), `Zlib.C213_follows` (cqp), `Zlib.C213_output` (cqp)

### C214 Gzip files in pieces — proved

However a member of a gzip file is divided among the calls of inflate (within the magic number, the time, the length of the extra field or the field itself, the name, the comment, the CRC of the head, the blocks, the CRC or the length at the end), it is accepted or refused, or more input is asked for, exactly as if all of it were there in one call, and the same bytes behind it are left: just the members are accepted, and those with another CRC or length at the end are refused.

*Method.* Words: what is pulled is kept (wordIn_read). Fields: the CRC of a part, gone on with, is the CRC of the whole (crcIf_append, by crc32_bytes for all starting values); then state by state, and C213 for the blocks.

*Result.* C214_head, C214_tail, C214_gunzip (each as in one piece), C214_accepts, C214_sound and C214_damaged (with the specification of members of C206), C214_content (what the calls write is the content, and with it the member is accepted). There is no gz_header; the heads of zlib streams, which are not allowed in this mode, are not modelled.

*Theorems.* `Zlib.C214_head` (cqp), `Zlib.C214_tail` (qp), `Zlib.C214_gunzip` (cqp), `Zlib.C214_accepts` (cqp), `Zlib.C214_sound` (cqp), `Zlib.C214_damaged` (cqp), `Zlib.C214_content` (cqp)

### C215 Reading of compressed files — partial

With any decoder in the place of inflate that writes a part of the content in each call and stops only for want of space or of input, the calls of Zlib_Inflater::read give the content one behind the other, each just as many bytes as it was asked for or all that were left, without an error, however large the buffer is and however much of the file was read at first. With a stream that is never ended (wrong or cut) each call gives an error or just as many bytes as it was asked for, so that this is never taken for the end of the content.

*Method.* Induction over the loop: a call that does not end the stream has used up the space (and the rest of the content is still to come) or all of the input (and the buffer is filled again, so the file gets shorter).

*Result.* C215_read, C215_open, C215_endless, for any decoder that has the properties Serves or Endless. That inflate as modelled in C198 and C214 is such a decoder is not proved (there reading and writing are separate models); counted_serves shows that there is one. Errors of reading are not modelled.

*Theorems.* `Fex.C215_read` (cqp), `Fex.C215_open` (cqp), `Fex.C215_endless` (cqp)

## Where the code and the properties disagree

Each of these is proved of the model with a concrete witness (`_false` theorems) or explicit in the exact condition of a theorem.

* **C02** A symbol edge that ends inside a character makes the UTF-8 library throw after the edge has been counted.
* **C04, C09** A symbol edge annotated twice is duplicated (once it has become explicit, the implicit entry stays in `vvcHash_`);
  the counter then counts it twice.  Re-adding a symbol edge with the item the lattice reports for it makes a second edge.
* **C05** An edge whose tags are extended after a mask was first queried is missing from later queries with this mask.  A mask with an
  empty alternative matches everything but the index of implicit edges does not know.
* **C06** A symbol edge that starts inside a character is listed by `outEdges` and not by `inEdges`.
* **C08** Discarding an implicit symbol edge creates a discarded copy and leaves the edge undiscarded.
* **C11** An edge sequence with a hidden symbol edge at position 0 after another edge loses what came before.
* **C12** `LayerTagMask::isNone` changes a mask of empty collections.
* **C18** `StringFrag`: appending a fragment that is not adjacent replaces the receiver; `find` looks past the end of the fragment; a
  fragment of a stored fragment is wrong.
* **C22** `*??ab` matches a euro sign followed by `ab`: after `*` a `?` matches a byte.
* **C24** No suggestion is made if all candidates are at least 99 edits away.
* **C28** Sorted `find` of a missing string returns the place where it would be; unsorted `find` misses strings with bytes ≥ 128.
* **C30** A code of more than 64 bits (66 symbols with Fibonacci frequencies) makes a shift undefined.
* **C31** `Seek(0)` and `SeekFromEnd` of the whole length read before the first element.
* **C32** Lemma codes are wrong when more than 62 characters are cut.
* **C34** `Simple9::Encode` of 0 divides by zero.
* **C36** `kleene_option` and `kleene_star` do not accept the empty word; `concatenate` with a first automaton without end states accepts
  the second language.
* **C37** `intersect`: the start states of the first automaton are used for both; end states ignore the epsilon closure; the symbol
  ANY is matched with EPS.
* **C38** The packed automaton without states: `getArcs` is undefined; 2^31 arcs overflow.
* **C39** A list without a non-empty word: `minimize_incremental` is undefined.  An unsorted list loses words.
* **C41** Multipart bodies lose their last byte; plain bodies with line ends are refused; `Content-Length: 0` waits for a byte; header
  names are case-sensitive.
* **C42** `%-1`, `% 7` and `%5g` are decoded though they are no encodings.
* **C43** A text field that arrives in pieces keeps only the last piece.
* **C44** Two blanks side by side: whether two constituents are put together depends on the order of the agenda (`edge_target`
  does not pass `skip_blank` on).  An edge of another layer with the same item keeps a constituent from being used.
* **C46** Version and length numbers overflow an `int`.
* **C47** The form decoder runs for ever if there is an `&` and no `=` after the last one; names are not decoded; `%` without a
  number repeats the byte before or is undefined.
* **C48** A name ending in `filename=` is taken for a file; the type of an upload loses its last character without a line end.
* **C49** A table of one symbol spends one bit per symbol.
* **C50** Without a blank before `-->` the code loses its last character; empty code takes in the rest of the page.
* **C51** A cookie that ends in the bare word `PSISESSIONID` throws an exception nobody catches; session numbers repeat after 10000.
* **C52** Implicit symbol edges do not keep the item, score and sequence they are added with.
* **C53** `HashFSA::find` returns the first arc whose symbol is not smaller and does not compare it, so a word that is not accepted
  gets the number of another word; if the empty word is accepted all numbers are one too small and the last one cannot be
  looked up. The length of a range is computed with its ends exchanged, so the linear search for short ranges is never used.
* **C54** The check of requirements looks at tags only: a processor for English is satisfied by a lemmatizer for Polish earlier in
  the pipeline. Qualities of the processors are added, so a pipeline with a superfluous inserted processor is preferred.
* **C56** `isViciousCircle_` sees only a processor inserted for itself; two processors that require each other's tags make the search
  endless even if a third one gives a solution. With an empty set of languages the list position that was just erased is used.
* **C57** The limit of five steps loses the destinations of longer chains of aliases; `findAliases_` only reports the limit and goes on
  with `0 - 1`, so a circle of aliases makes `getAllAliases` run until the stack is full.
* **C58** The jump before the right operand of `,` is left out if the code so far ends in something that puts a true value on the stack,
  where assignments are skipped; jumps to the assignment itself are not looked for. So `a = (x , 1) , y` is true although `x` is false. The
  second operand of a threefold intersection is never pushed if it is a constant. A `::` leaves the negated condition on the stack, so
  an operator with `::` in its right operand compares with that. 0 and -1 mean open and false on the right of an operator, but are the
  numbers 0 and -1 elsewhere. A sum of things that are no numbers is the number 0, which counts as true. `is_top_true` reads argument
  0 of an assignment of a constant, which is never the constant.
* **C60** The category is escaped, but `,`, `<` and `[` are not, and end it: the edge of the symbol `,` has category `',` and is read back as
  `'`. Tags are escaped by the writer, but the reader unescapes copies of them, so `a_b` becomes `a\_b`. An edge without a category is a
  syntax error. Long text is shortened after it was escaped, and may be cut after a backslash; the reader then throws an exception.
* **C61** A partition in which an edge that is not written comes before one that is (`-5`) is read as one negative number. One partition
  without edges makes all of them unreadable. Tags of a partition are not escaped by the writer but are unescaped by the reader.
* **C62** Edges that cross give brackets that cross (`(a[b)c]`). Edges of no length are never printed.
* **C63** After an exchange the loops begin again with `a = 0; b = 1`, but `++b` follows, so that the first two are not compared again:
  three edges can end in the wrong order.
* **C64** `EdgeData::operator<` joins the comparisons of the fields with `||`. Two edges can each be below the other (one with the smaller
  category, one with the smaller text), so `std::set<EdgeData>`, which is used by default, has undefined behaviour.
* **C65** The pattern `(x)%*(` is printed forever: `npos + 1` is 0, so the search goes on from the beginning. Asking for an attribute an edge
  does not have (`%a(x)`) inserts it, and a later `%A` prints `x=`. A list with an empty pattern prints `%*****`. Text with `%*****` in it is
  taken for the place of the list. Roles are not compared although they may be named.
* **C66, C67** `targets[tag]` is 0 for a tag not met before, so the first group of a tag can only be opened at vertex 0. If a text begins with a
  blank and its first sentence after it, no sentence is ever opened, nothing at all is printed, and at the end a group is closed that was not
  opened. After a gap between two sentences (a blank that belongs to neither) the second is not opened; its words go to the first.
* **C68** The separator of a tag is left out if the text waiting contains it, so what stands between two paragraphs depends on the order of
  their edges (`\n\n` or `\n\n\n`).
* **C69** Control characters are not escaped: a text with a line break in it is not JSON. `closeSubArray` closes the innermost array, whatever
  the tag: two paragraphs of one sentence each become one paragraph of two sentences.
* **C70** `utf8::unchecked::sequence_length` is 0 for a byte that cannot begin a character. After a refused break the search of a rule stays at
  such a byte forever.
* **C71** Only the leftmost match of a rule is looked at, with the break the engine prefers. A non-breaking rule whose leftmost match breaks
  later hides another match of the same rule that would forbid the break. A match that begins before a break and has its own break after it is
  not found, so of two breaks two characters apart the second can be missed.
* **C72** `[(]` in a pattern becomes `[(?:]`, which matches other characters. Groups with a name are left, and capture: the break is then taken
  from the wrong group.
* **C73** With cascading, rules come in the order of the rule lists, not in that of the language maps as SRX 2.0 has it; as the first rule that
  matches decides, this can change where a text is broken.
* **C74** Attributes are listed in the order in which any item under the manager first used them. A 129th attribute fails an assertion (or,
  without assertions, writes outside the bit set).
* **C75** `operator==` does not look at the bit set of attributes: an attribute with the value `false` equals an absent one if an attribute with a
  higher number has a value, and differs from it otherwise (`zvalue_to_string(NULL)` is `NULL_ZVALUE`, so the comparison with the empty string never
  applies). An empty string as the last value equals absence.
* **C76** `007`, ` 7` and `-0` are read back as `7`, `7` and `0`; `1073741824` as `-1073741824`; `any` as `nil`, `false` and `empty` as `fail`.
* **C77** Conditions compare with how a value is printed: `A = any` or `A = 007` never holds for an attribute that was set so.
* **C78** New items are pushed back on the vector that is gone through and meet the same rule. A rule such as `CAT = c >> A = x|y` never ends and
  takes ever more memory; the rules in `data/*.u` all change what they ask for. Commands after the one with alternatives are not applied to the new
  items. With `CAT = $A|b` the first character of `b` is taken for the `$`; with `CAT = b|$A` the category becomes `$A`.
* **C79** Two attributes mapped to one: the one the manager knows later wins. `@val nil x` has no effect, as values are looked up by
  `zvalue_to_string`.
* **C80** A line with two commands with alternatives becomes two rules with the same conditions, the second of which may not apply any more. Reading
  stops at the first blank line.
* **C81** If a cutter cuts within an edge of the path, the edge goes to the earlier item as a whole and the surplus is forgotten: later items are put
  on later text than they were cut from, or, when the edges are used up, `firstEdge` of an empty sequence throws `NoEdgeException`.
* **C82** `runCutterOnEdge_` follows the path from the source of the super edge as far as it goes, not up to the target of the edge. With two adjoining
  super edges the text of the second is cut twice, and items of the first run reach into it.
* **C83** Lengths are 32 bits wide: of a text of 2^32 bytes and more only the first (length mod 2^32) bytes count, so that different texts get the same
  digest without any collision of MD5 (`C83_large_false`). For a length in the last 64 below 2^32 the sum `i + blocksize` in `MD5::update` wraps around, and
  bytes behind the text are read (`C83_behind_false`).
* **C84** The number of the id starts again with each start of the server, only its last four digits are used, and the random string depends only on the
  time plus the number: the first file of a new server can get the name of the 10001st file of the old one, stored 10000 s earlier, and replaces it
  (`C84_restart_false`).
- **C87** (`morfologik_tags_parser.cpp` 235-246, 291-301): `getAttributeToSeek_` counts an attribute with alternatives before it is known whether the attribute is used. If it is unknown, or its category has a value already, the expansion makes one round too many, and this round returns nothing: all descriptions are lost. Proved: `C87_lost`, `C87_unknown_false` (`subst:sg:nom:m3:a.b`).
- **C88** (`morfologik_tags_parser.cpp` 140-152): `removeLexemeAttributes_` erases `pos` without counting down, if it has alternatives: such a tag has no forms. Proved: `C88_no_forms`, `C88_pos_false` (`adj.subst:sg`).
- **C88** (`morfologik_tags_parser.cpp` 140-152, 274-289): the lexeme of a participle (`ppas`, `pact`, …) is a verb and has the aspect, but `removeLexemeAttributes_` only looks at `pos`, so the forms have the aspect too. Proved: `C88_participle_false`.
- **C89** (`XmlTree.cpp` 124-167): if the `;` of an escaped character is missing at the end of a string, `end` is `npos`, `end+1` is 0 and the string is read from the beginning again, for ever, with the result growing. Proved: `C89_diverges`, `C89_ends_false` (`&lt`).
- **C90, C92** (`XmlTree.cpp` 196-200): a `<` without `>` ends the loop of `TokenizeXml`; the text before it, not yet stored, is lost too, and `ProcessAndStripXMLTags` returns `true` for what is left. Proved: `C90_lost_false`, `C92_lost_false` (`a <b> c </b> 1 < 2`).
- **C91** (`XmlTree.cpp` 66-83): the closing quote is sought from the second character of the value on, so an empty value swallows what follows; the name is sought anywhere in the tag, so `mylabel="x"` or a value ending in `label=` is taken for `label`. Proved: `C91_empty_false`, `C91_suffix_false`, `C91_equals_false`.
- **C92** (`XmlTree.cpp` 234-237): a line without `<` is returned before `unescape` is applied. Proved: `C92_escaped_false`. A tag `<x/>` without `span` is always rejected as empty. Proved: `C92_single`.
- **C93** (`SyntaxTree.cpp` 138-157): the ancestor is sought from the parent of the previous node on, not from the node itself. With two roots a null pointer is followed; a node whose first child begins later than itself loses this child to its parent. Proved: `C93_roots_false`, `C93_gap_false`.
- **C94** (`SyntaxTree.cpp` 74-87): if no node begins at a position of a span, the loop makes no progress and never ends. Proved: `C94_ends_false`.
- **C96** (`bigram_language_model.cpp` 46-66): the loop counts a bigram when the next character is read, so the last bigram of a text is never counted; a text of two characters has no bigrams at all. Proved: `C96_last_false`.
- **C96, C97** (`bigram_language_model.cpp` 50-58): the length is checked in bytes, but two characters are read; for a text of one character of several bytes `utf8::next` throws `not_enough_room`. With `--force` and several languages the text `é` ends the program. Proved: `C96_single_false`, `C97_force_false`.
- **C97** (`lang_guesser.cpp` 49-51): with `--force` and a single language in `--only-langs` the name is not compared with the known languages; `zz` is the answer for all texts. Proved: `C97_unknown_false`. (The constructor without options leaves `forceMode_` without a value; not modelled.)
- **C98** (`lattice.cpp` 1372-1386): a loose vertex is sorted by the last text position that leads to it, so with the edges 3 → loose → 1 the loose vertex comes after 1: the order is not a topological one although the graph has no cycle. Proved: `C98_back_false`.
- **C98** (`lattice.cpp` 1342-1356): with loose vertices `next` behind the last vertex does not throw; it goes on with the positions of the text from the beginning. Proved: `C98_end_false`. The end of the text is yielded with loose vertices even if useless vertices are skipped (part of `C98_loose`).
- **C98, C99** (`lattice.cpp` 1358-1370): an edge from within a character, which `addEdge` accepts, makes the iterators leave out its ends, and the edge is not listed. Proved: `C98_inside_false`, `C99_inside_false`; with a text that is not well-formed the last vertex may be left out: `C98_malformed_false`.
- **C100** (`lattice.cpp` 680-715, `lattice.hpp` 578-585): "all the descendents of a given edge" are its children only (`C100_descendants_false`), and a child is listed once for each use of the parent in its partitions (`C100_twice_false`).
- **C101** (`lattice.cpp` 741-754): only the first edge of the first partition that is not empty is followed, so an ancestor with the tag may not be found (`C101_nearest_false`: a token that is the second part of an edge). `addEdge` refuses an edge made of itself, but not circles: with the partitions X ← (), Y ← (X), X ← (Y) `getEdgeOrigin`, and so `getEdgeLemma`, does not end (`C101_ends_false`).
- **C102** (`lattice.hpp` 907-919): where nothing matches, `bestOne = iter.next()` after a blank takes the edge after the blank, not the blank; if the blank is the last edge (e.g. a blank token over a symbol edge) `NoEdgeException` is thrown (`C102_throws_false`), although `BestPathAnnotator` relies on this function. The first edge is taken without asking the predicate, so a path goes on over edges that neither match nor are blank (`C102_other_false`).
- **C103** (`numconversion.cpp` 775-811, 1029-1040): for numbers from 2·10^660 on the sign of failure `#` of `make_large_unit` becomes one of the words (`C103_refused_false`: *dwa #*).
- **C104** (`numconversion.cpp` 882-930): `high_type` has CARDINAL instead of the form of a compound for the plural ordinals, so the two thousandths are *dwatysięczne* for *dwutysięczne* (`C104_plural_false`).
- **C105** (`numconversion.cpp` 1113-1122, 1192-1210, 1139-1158): after the comma of "1,0000" five zeros are said (`C105_zeros_false`); "1000/3" is refused, as the government is selected for three digits only (`C105_fraction_false`); "-abc" gives *minus #* and "%" gives *# procent* (`C105_refused_false`).
- **C106** (`numconversion.cpp` 740-744): `equals("")` reads the character before the beginning of the string; it is reached for "5,", ",5", "1+", "1/", "3-,5%" (`C106_total_false`), also by `ordnum2pltext(",5")` of the transfer language.
- **C107** (`numconversion.cpp` 647-656): after the comma any greater digit decides, whatever stands before it, and then the length: the ranges "1,25-1,31" and "1,50-1,5" are said to be differences, and so is "007-12" (`C107_range_false`).
- **C108** (`numconversion.cpp` 895-930, 1098-1103): two words with one code for the plural of the 21000th, one word with two codes for a thousand before a noun, none for *dwunastoipół* (`C108_codes_false`).
- **C109** (`lattice.cpp` 825-855): the end of the inserted text is joined to the target of the first symbol edge of the position only (`C109_alternatives_false`). Where there is none (the end of the text) the first edge is the one just inserted: one character throws `LoopEdgeException` after the lattice has been changed (`C109_end_loop`, `C109_end_false`), more characters make a cycle (`C109_end_cycle`). With the empty text `to` is used uninitialised (`C109_empty_false`).
- **C110** (`lattice.cpp` 857-880): in the handler of the exception for no edges out of `to` the edges *out* of `to` are asked for again (those into `from` were meant), so a range at the end always throws `WrongVertexException` (`C110_end`, `C110_end_false`).
- **C111** (`lattice.cpp` 882-905): for a longer text the whole text (not the rest) is inserted after the replaced characters: "a" replaced by "xy" in "ab" gives "xxyb" (`C111_longer_false`). A shorter one at the end throws after the lattice has been changed (`C111_shorter_false`). If a symbol edge with a text was once added over a character without a symbol edge, replacing by that text changes nothing (`C111_disorder_false`).
- **C112** (`mac_cyrillic.h`): bytes A2, B6 and FF stand for U+00A2, U+2202 and U+00A4, in the standard table (since 2000) for U+0490, U+0491 and U+20AC (`C112_mac_false`).
- **C113** (`utf8.h`): surrogates and characters above U+10FFFF are read and written (`C113_unicode_false`). A lead byte followed by too few bytes is reported as incomplete even if a following byte shows that it is illegal (`C113_few_false`).
- **C114** (`tiniconv.c`, `utf7.h`): `utf7_reset` is never called, so the last character of a text may be lost (`C114_end_false`).
- **C115** (`ucs2.h`): U+FEFF is written although it is read as a mark (`C115_mark_false`).
- **C116** (`tiniconv.c` 59): the loop ends with OK as soon as the buffer is full, even if input is left (`C116_ok_false`).
- **C117** (`encoding_converter.cpp`): results longer than 99999 bytes are cut off without a warning, since `TINICONV_CONVERT_OUT_TOO_SMALL` and `IN_TOO_SMALL` count as success and OK may mean that the buffer is full (`C117_long_false`); illegal bytes near the end of the text are taken for an incomplete character and the text is cut off there, e.g. the Latin-2 "a\xf3dz" read as UTF-8 becomes "a" (`C117_incomplete_false`); if the source encoding is the converter's own target encoding the text is returned unchanged, whatever encoding was asked for (`C117_target_false`); the result is read as a C string, so to UCS-2 hardly anything is converted (`C117_ucs2_false`); the table has "x-max-cyrillic", "CP866" and "ISO-2020-JP" where uchardet says "x-mac-cyrillic", "IBM866" and "ISO-2022-JP" (`C117_names`).
- **C119** (`special_casing_converter.cpp`, `case_tables.cpp`): the search stops at the first row for a greater code point, but the rows are in the order of SpecialCasing.txt and not sorted; only 14 of the 103 rows are ever found, e.g. not those for U+0149, U+01F0, U+0390 or U+1F80 (`C119_special_false`, `C119_upper_false`).
- **C120**: title casing is not stable for sharp s and the ligatures (`C120_title_idempotent_false`), since title case is applied to every letter of a text.
- **C121** (`turkish_and_azeri_lower_contextual_case_converter.cpp`): only the next and the previous character are looked at, so a mark between `I` and its dot leads to a dotless `ı` with a dot (`C121_lower_false`); `headConvert` and `tailConvert` lose the neighbour altogether (`C121_head_false`).
- **C122** (`general_case_converter.hpp` 29): a character with a special row counts as touched even if the row leaves it as it is, such as sharp s in lower case (`C122_touched_false`).
- **C123** (`lemmatizer_annotator.hpp` 293-316): a word in capitals is never looked up in lower case ("PIES" is tried as "PIES", "Pies" and "pIES", `C123_lower_false`); because of C122 a word with sharp s is looked up twice under the same spelling (`C123_once_false`).
- **C124** (`lemmatizer_annotator.hpp` 122-152): `lastLexeme_` is not set by the constructor and used if a form is reported first (`C124_form_false`); the memory is kept from one spelling to the next (`C124_apart_false`). No lemmatizer of the toolkit reports in such an order (`C124_apart_partial`).
- **C126** (`lexicon_base.cpp` 106-108): `isEmptyLine_` returns the position of the first character that is no separator as a `bool`, so every line that begins with a space or a tab is skipped without a message (`C126_false`).
- **C128** (`lexicon_base.cpp` 45-60): only neighbours with the same key are put together; if equal keys are apart, the same key is given to the hash twice and no perfect hash exists (`C128_false`, `C128_apart`).
- **C129** (`lexicon_base.cpp` 99-104): the comment is cut off before unquoting and the quoter does not quote `#`, so no key or field with `#` can be written (`C129_needed`).
- **C130**: fields are unquoted and then joined with tabs and `;`, which are not quoted again (`C130_false`). In `mapper.cpp` the fallback of a missing text to the record is never used, as a record always has a first field.
- **C131** (`mapper.cpp` 266): parts of the key are joined with commas that are not quoted (`C131_false`).
- **C132** (`mapper.cpp` 306-311): attributes are cloned through strings, so a symbol that looks like a number or a special word becomes another value (`C132_clone_false`). `throw new Exception` in the constructors of mapper and lexica throws a pointer, which handlers for exceptions do not catch.
- **C134**: a lemma with a plus sign, such as `C++`, is cut (`C134_false`).
- **C135** (`simplenorm_normalizer.cpp` 97-101): a line without a tab, also an empty one, makes `pair[1]` read beyond the vector (`C135_undefined`).
- **C136** (`detok.cpp` 63-76): tokens with equal positions overwrite each other; tokens without `SurfacePosition` all have the position 0 (`C136_false`).
- **C139** (`zvalue.hpp`, `zenvironment::insert`): with several values under one key, which one is fetched depends on slots freed by other keys (`C139_false`).
- **C140** (`zvalue.hpp`, `put_`/`get_`; `transferer.cpp` 66-67): the step of the search is odd, which reaches all slots only for powers of two; the table of scripts has ten slots, and with two scripts at addresses such as 64 and 144 the search for a third at 224 never ends (`C140_false`).
- **C142** (`zvalue.cpp` 519-529): `remove_symbol` never sets its result and returns `NULL` always (`C142_false`).
- **C144** (`zvalue.hpp` 470): `remove` in a vector of ten slots with nine elements clears a byte behind the block (`C144_false`).
- **C146** (`zvalue.cpp` 735-739): only the parent of the inserted tree is checked, so a tree can be put into itself (`C146_false`).
- **C147** (`zvalue.cpp` 711-714): only one reference of a deleted subtree is removed, as its comment says, and `getSubtree` still gives the subtree under the number behind the last one (`C147_false`).
- **C153** (`SimpleDAG.cpp` 19-31, 128-140): `in` follows one arc for each symbol, from the state 0; for an automaton that was not determinized it misses words (`C153_nondeterministic_false`).
- **C161/C162** (`RuleSet.cpp` 446-523): with more nonterminals allowed than the length of a rule (`max_nt > max_length`) `nextksb` gives `[1, …, k]` and then reads before the beginning of the list; with `max_nt = max_length + 1` it stops at once, and rules with nonterminals are all dropped (`C161_too_many_false`, `C162_wide_false`).
- **C163** (`CompressedDAG.cpp` 485-562): `multihash`, with which the rules for a sentence are looked up (`RuleSet.cpp` 95), takes the words of a pair of states when the pair leaves the queue; a longer word that reaches the pair later is not passed on to the successors: rules are silently not found (`C163_loses_false`).
- **C166** (`IncrementalFSA.cpp` 165-180, 218-232): `delta_prefix` has no `return` at the end of the word, so a repeated word (or one that begins the word before, or an empty line) is undefined behaviour; `finalize` without words takes the last element of an empty map; words in another order are not rejected and may give wrong words (`C166_prefix`, `C166_empty`, `C166_unsorted_false`). `binarize-rules.perl` sorts the lines with `sort`, whose order depends on the locale, while the symbols are numbered in the order of perl.
- **C167** (`mempool.cpp` 401-474): `storage::allocate` divides by zero for the size 0 and makes a pool with blocks without items for sizes greater than `poolsize` (the constructor writes before the block); `storage::free` calls itself with the size 0 for large memory, not the function of the system, so it is never freed (`C167_storage_false`, `C167_leak_false`). A double free is not noticed (`C167_doublefree`).
- **C168** (`mempool.cpp` 283-368): `pop` and `top` look for the beginning of the last string by its zeros, and take a string of one character at the beginning of a block for one that is not there: the pointer behind it is returned and it stays (`C168_pop_false`). Popping from the empty stack leaves a null pointer that `push` uses (`C168_emptied_false`).
- **C170** (`dictionary.cpp` 32-57): a dictionary for fewer than five words has a hash table of size 0; the first search divides by zero (`C170_small_false`).
- **C171** (`dictionary.cpp` 358-398): if `<unk>` came as an ordinary word (`generate`, or `encode` while the dictionary is open), the first unknown word adds it again, and `oovcode()` is another number than `encode` returns (`C171_twice_false`). If the code was set with `oovcode(v)` and there is no `<unk>`, `encode` calls itself without end (`C171_endless_false`). `setoovrate` changes `tb[-1]` if `oov_code` is -1 (`C171_oovrate_false`).
- **C172** (`dictionary.cpp` 85-126): a word of 1000 or more characters is split, with only a message (`C172_long_false`).
- **C173** (`dictionary.cpp` 188-230): a word of 999 characters is accepted by `generate` but `load` exits; a dictionary with `<unk>` twice is saved but `load` exits (`C173_long_false`, `C173_unk_false`).
- **C174** (`dictionary.cpp` 233-283): `cmpdictentry` truncates the difference of two `long long` to `int`: with frequencies 0, 2·10⁹ and 4·10⁹ the comparison is cyclic (`C174_order_false`, `C174_cycle_false`). The copy does not initialize `oovlex`, which `encode` reads for unknown words (`C174_oovlex_false`).
- Not modelled, found by reading (`dictionary.h` `intsymb`): memory for `strlen(isymb+1)` characters is allocated, for one less than the string, without the zero; then the pointer is replaced by the argument. `index.h` for WIN32 does not increment `i` in its loop.
- **C175** (`puddle_util.cpp` 20-107): the references of `+` and `*` are exchanged, in both directions by different numbers, so that `a+b` becomes `a*b`; `&amp;` is unescaped before `&lt;`, `&gt;`, `&#63;` and `&#124;`, so `&lt;` in a text becomes `<` (`C175_references_false`, `C175_back_false`).
- **C176** (`puddle_util.cpp` 127-161, `group_action.cpp` 25-111): the place of the head is counted from the start of the group but used from the start of the left context (`C176_head_false`). A head outside of the group becomes 0 or a wrapped number instead of being refused, and the test reads outside of the sizes (`C176_kept_false`).
- **C177** (`rule_modifier.cpp` 30-43): moving a rule to the place after the last one inserts behind the end (`C177_end`).
- **C178** (`rule.cpp` 79-99): an action that refuses makes the last element shorter, and is not asked again (`C178_agree_false`).
- **C179, C180** (`tagset.cpp` 436-496, 674-724): proper labels have their values in the alphabetical order of the names of the attributes, while `getAttributes` needs the order of the declaration: for `subst = number case` the proper label `subst:nom:sg` has no number (`C179_order_false`, `C180_all_false`). After an unknown value all attributes are used up and later values are lost; a label of an unknown part of speech with attributes dereferences the end of a map (`C180_unknown_false`).
- **C181** (`unify_action.cpp` 301-315): when two tokens have no common value, the set of common values is empty and is filled again by the third (`C181_only_false`).
- **C182** (`unify_action.cpp` 131-235, 340-403): a reading without a value gives the empty pattern, which fits everything, so nothing is unified (`C182_null`, `C182_agree_false`). The vector of morphologies has an entry for each index but is used with one for each token: an index for two tokens leads outside of it, and after an index without tokens all readings of the next are discarded (`C182_discarded_false`).
- **C184** (`lattice_wrapper.cpp` 987-1027, `delete_action.cpp` 93-151): readings are discarded if one condition is met instead of all, and conditions on base forms are taken the other way round (`C184_all_false`). The test leaves its loop before noting that a condition is not met, and its answer is overwritten (`C184_test`).
- **C185** (`fsa_algorithms.hpp` 977-1000): for automata with epsilon transitions the symbol of epsilon is part of the enumerated words (`C185_accepted_false`).
- **C188** (`crc32.c` 399-418): `crc32_combine` with a negative length never returns, as the shift of the length keeps its sign (`C188_ends_false`).
- **C190** (`adler32.c` 69-82): `adler32(adler, Z_NULL, 1)` reads the buffer before it is compared with `Z_NULL` (`C190_null_false`).
- **C191** (`adler32.c` 144-147): `adler32_combine` compares the sums with `BASE` by `>` instead of `>=`, so it gives 65521 where the sum is 0 (`C191_combine_false`; this is a known error of this version of zlib).
- **C193** (`inftrees.c` 117-125, `inflate.c` 877-886): a set of lengths of codes that are all zero is accepted although it is incomplete; the entries are marked as invalid, but the operation of an entry is not looked at there, so each bit is taken for a length zero (`C193_empty_codes`).
- **C195** (`inftrees.h` 38-44): the comment says that the true maximum is not known; it is at most 862 for 286 symbols and 606 for 30 distances (`C195_fit`), so the check can never fail. (That 592 is the exact maximum for distances is not proved here.)
- **C197** (`inffixed.h`, `inftrees.c` 66): the stored table marks the two unused length symbols by the operation 64, the tables that are built by 201 and 196 (`C197_marks`); both are taken for invalid codes.
- **C198** (`inflate.c` 1039, 1049-1053): a distance is compared with what the window holds and what this call has written, not with the size of the window; with a window smaller than 32768 bytes a copy from far back within one output buffer is accepted, and when it is interrupted the next call reads before the window (`C198_small_window_false`). `Zlib_Inflater.cpp` only uses windows of 32768 bytes.
- **C200** (`inflate.c` 367, 1204): after a dictionary `whave` is not the write position, and can grow beyond the size of the window; with a small window distances greater than it are accepted and the wrong bytes are copied (`C200_small_window_false`). The program does not use dictionaries.
- **C207** (`Zlib_Inflater.cpp` 71-96): with a buffer of less than 4096 bytes and nothing said about the first read, 4096 bytes are read to before the buffer (`C207_sizes_false`); no caller does this.
- **C208** (`Gzip_Reader.cpp` 33-53): size and CRC are read from the last eight bytes of the file; for a file of several members, which RFC 1952 allows, they are those of the last member (`C208_size_false`), while `Zlib_Inflater::read` ends behind the first one.


## Trusted base

* The Lean 4 kernel (4.33.0).  No axioms besides `propext`, `Classical.choice` and `Quot.sound`; the
  axioms of each theorem are listed above (`#print axioms`).  No `sorry`, no `native_decide`, no `bv_decide`.
  `decide +kernel` is used for concrete witnesses and for finite tables only.
* Mathlib (and its dependencies), as far as imported; it is checked by the same kernel.
* The reading of the C++ code documented at each definition.  The models are not generated from the code
  and not tested against it; the code is not run.
* The standard library, Boost and CMPH are assumed to behave as documented, in the way described where they are used
  (heap functions: any implementation the standard allows; hash functions and perfect hashes: arbitrary functions with the
  stated interface; `double` scores: an ordered type).
* x86-64 conventions where they matter: little endian, signed `char`, 32-bit `int`, 64-bit `size_t`.

## What is not modelled

Everything not named above, in particular: the pipe runner and processor factories, the readers and writers of file formats
(apart from the quoters, the cutter and the file globs they use), the tokenizer, segmenter, language guesser, the
puddle parser, the morfologik, lang-guesser, bilexicon and transferer tools, the translation decoder of bonsai (apart from its
list coders), the Perl and Java bindings, threads, the file system beyond what the globs and the file server use,
memory management, floating point arithmetic and performance.

## Testing the theorems

`seeded/LOG.jsonl` records deliberate mistakes made in the model in a scratch copy, the claim each breaks, the property theorems
that no longer hold or could no longer be proved, and the theorems added or tightened because a mistake went unnoticed.  `failed` lists the
theorems that depend on a proof that no longer goes through; it may contain theorems that are still true and only
share a lemma with a broken one.
