{"id": "C01", "title": "Lattice text is append-only and edge text is a fixed substring", "statement": "After any sequence of lattice operations, text read earlier is still a prefix of getAllText(), and getEdgeText() of an edge that runs between two text positions keeps returning exactly the substring between its source and target positions, no matter what is appended or annotated later.", "quantifier": "for every history of appendString/addSymbols/addLooseVertex/addEdge/discard calls and every edge existing at any point of it", "why_tests_cant": "the histories are unbounded and interleave reader and annotator calls; a test checks a handful of lattices", "anchors": ["common/lattice.cpp: Lattice::appendString, Lattice::addEdge, Lattice::getEdgeText", "common/lattice.hpp: Lattice"]}
{"id": "C02", "title": "No loops or backward edges; a rejected addEdge has no effect", "statement": "addEdge never creates an edge from a vertex to itself nor, between two text positions, an edge pointing backwards; such a call is rejected with an exception, and after any rejected call every observation of the lattice (text, edges, tags, scores, partitions, counters) is unchanged.", "quantifier": "for every reachable lattice and every argument tuple of addEdge", "why_tests_cant": "absence of partial effects on the error path has to be compared over all states and all later observations", "anchors": ["common/lattice.cpp: Lattice::addEdge", "common/exceptions.hpp"]}
{"id": "C03", "title": "Edge annotations accumulate monotonically", "statement": "Once an edge exists, its endpoints and annotation item never change, its set of layer tags only grows, its score is the maximum of the scores of its partitions, and its list of partitions is only ever extended at the end.", "quantifier": "for every reachable lattice, every edge in it and every further sequence of operations", "why_tests_cant": "monotonicity is a statement about all futures of a state", "anchors": ["common/lattice.cpp: Lattice::addEdge, Lattice::addPartitionToEdge, Lattice::discard"]}
{"id": "C04", "title": "Equal annotations are merged, not duplicated", "statement": "At any time there is at most one edge for given endpoints, annotation item and plane; adding it again returns an edge already present and extends it instead of creating a second one, so no query ever reports the same annotation twice.", "quantifier": "for every history of operations and every pair of edges present afterwards", "why_tests_cant": "duplicates appear only after particular interleavings (e.g. re-adding a symbol edge that has been promoted), which enumeration over small tests misses", "anchors": ["common/lattice.cpp: Lattice::addEdge (vvcHash_ handling)"]}
{"id": "C05", "title": "Mask queries return exactly the matching edges", "statement": "outEdges(v, mask) and inEdges(v, mask) return exactly the edges leaving/entering v whose current layer tags match the mask, whether or not a query with this mask was made before.", "quantifier": "for every history of additions and queries, every vertex and every mask", "why_tests_cant": "the per-mask cache makes the answer depend on the whole history of earlier queries", "anchors": ["common/lattice.cpp: Lattice::outEdges, Lattice::inEdges, Lattice::addTagMaskIndex_, Lattice::addEdge"]}
{"id": "C06", "title": "Out-edges and in-edges agree", "statement": "An edge is among all out-edges of its source vertex exactly when it is among all in-edges of its target vertex, and source/target lookups agree with the vertex it was found at.", "quantifier": "for every reachable lattice and every pair of vertices", "why_tests_cant": "in-edges of symbol edges are reconstructed by scanning the text backwards, which depends on every byte of the text", "anchors": ["common/lattice.cpp: Lattice::allOutEdges, Lattice::allInEdges, Lattice::priorVertex_, Lattice::getEdgeTarget"]}
{"id": "C07", "title": "Symbol edges tile well-formed text", "statement": "After appending well-formed UTF-8 text with symbols, following the symbol edge from position 0 visits exactly the characters of the text in order, one edge per character, ends at the last vertex, and concatenating the edge texts gives back the text.", "quantifier": "for every list of well-formed UTF-8 strings appended one after another", "why_tests_cant": "texts are unbounded and mix 1-4 byte characters", "anchors": ["common/lattice.cpp: Lattice::appendStringWithSymbols, Lattice::addSymbols", "common/string_helpers.cpp: symbolLength"]}
{"id": "C08", "title": "Discarding is permanent and local", "statement": "After discard(e), isDiscarded(e) holds forever, and no other edge changes its tags, score or partitions; edges never discarded never report being discarded.", "quantifier": "for every reachable lattice, every edge and every further sequence of operations", "why_tests_cant": "locality and permanence quantify over all other edges and all futures", "anchors": ["common/lattice.cpp: Lattice::discard, Lattice::isDiscarded"]}
{"id": "C09", "title": "countEdges counts the edges between two vertices", "statement": "countEdges(u, v) equals the number of distinct edges from u to v (the chart parser relies on the count growing exactly when a new edge has been created).", "quantifier": "for every reachable lattice and every pair of vertices", "why_tests_cant": "the counter is maintained incrementally over the whole history", "anchors": ["common/lattice.cpp: Lattice::countEdges, Lattice::addEdge", "tools/parsers/gobio/chart/chart.tpl: chart::add_edge"]}
{"id": "C10", "title": "Path extraction terminates and yields a chain", "statement": "In a lattice whose edges connect text positions, getPath from a vertex terminates, and the edges it returns form a contiguous chain starting at the given vertex, ending at the vertex it reports, all matching the mask.", "quantifier": "for every reachable lattice without loose vertices, every start vertex and mask", "why_tests_cant": "termination for all inputs cannot be observed by running", "anchors": ["common/lattice.cpp: Lattice::getPath", "common/lattice.hpp: getPathWithSkipping"]}
{"id": "C11", "title": "An edge sequence lists the edges put into it", "statement": "Iterating the sequence produced by EdgeSequence::Builder yields exactly the edges added to the builder, in the order in which they were added.", "quantifier": "for every list of edges (symbol edges and ordinary ones mixed) added to a builder", "why_tests_cant": "the builder switches between two representations depending on the whole list", "anchors": ["common/lattice.cpp: Lattice::EdgeSequence::Builder, Lattice::EdgeSequence::Iterator"]}
{"id": "C12", "title": "Layer-tag masks mean what they say", "statement": "A mask written as alternatives (';') of conjunctions (',') matches a tag set exactly when all the tags of at least one alternative are present; the any-mask matches everything, the none-mask nothing; hence enlarging a tag set never makes a matching mask stop matching.", "quantifier": "for every mask built from any list of alternatives, and every tag set", "why_tests_cant": "exponentially many tag sets and masks", "anchors": ["common/layer_tag_mask.cpp", "common/layer_tag_mask.hpp: matches", "common/layer_tag_manager.cpp: getAlternativeMask, splitMaskSpecification"]}
{"id": "C13", "title": "Tag names survive the round trip through tag sets", "statement": "Creating a tag collection from a list of names and asking for its names returns exactly the distinct names given, sorted, whatever other tags were registered before, as long as at most 64 distinct tags are in use.", "quantifier": "for every manager state and every list of names", "why_tests_cant": "depends on the order of all earlier registrations", "anchors": ["common/layer_tag_manager.cpp: createTagCollection, getTagNames", "common/layer_tag_collection.cpp"]}
{"id": "C14", "title": "Planes partition the edges", "statement": "areInTheSamePlane is an equivalence relation on tag collections, two collections are in the same plane exactly when they contain the same '!'-tags, and adding ordinary tags never moves a collection to another plane.", "quantifier": "for every manager state and all tag collections", "why_tests_cant": "equivalence laws quantify over triples of sets and all registries", "anchors": ["common/layer_tag_manager.cpp: areInTheSamePlane, onlyPlaneTags"]}
{"id": "C15", "title": "PSI/UTT quoting is lossless", "statement": "unescape(escape(s)) = s for every byte string, for the PSI quoter and the UTT quoter; hence distinct strings have distinct quoted forms.", "quantifier": "for every byte string", "why_tests_cant": "infinitely many strings; interaction of backslashes, underscores and control characters", "anchors": ["common/utt_like_quoter.cpp", "common/psi_quoter.cpp", "formats/utt/utt_quoter.cpp"]}
{"id": "C16", "title": "Quoted text cannot break the column format", "statement": "The quoted form of any string contains no space, tab, newline or carriage return (and, in PSI files, no unescaped '#'), so a quoted field is always read back as a single field; unquoting either succeeds or reports an error exactly for malformed escape sequences.", "quantifier": "for every byte string", "why_tests_cant": "infinitely many strings", "anchors": ["common/utt_like_quoter.cpp", "formats/psi/psi_writer/psi_lattice_writer.cpp"]}
{"id": "C17", "title": "Bracketing quoting is lossless", "statement": "For the bracketing writer's quoter, unescape(escape(s)) = s for every byte string and the escaped text has no line breaks or tabs.", "quantifier": "for every byte string", "why_tests_cant": "infinitely many strings", "anchors": ["formats/bracketing/bracketing-writer/bracketing_quoter.cpp"]}
{"id": "C18", "title": "StringFrag behaves like the string it denotes", "statement": "Every StringFrag operation (substring, append, comparison, find, length, concatenation) gives the same result as the operation on the plain string it denotes, independently of how the fragment is stored.", "quantifier": "for all fragments, stored or referring to a larger text, and all operations", "why_tests_cant": "representation independence quantifies over all representations and operation sequences", "anchors": ["common/string_frag.cpp", "common/string_frag.hpp"]}
{"id": "C19", "title": "Length-limited cutting loses nothing", "statement": "When segments are cut under a hard and a soft length limit, the produced pieces concatenate to the segment, no piece is longer than the hard limit, cut points fall on character boundaries of well-formed text, and cutting terminates.", "quantifier": "for every segment text and all limit values for which the cutter does not report an error", "why_tests_cant": "interplay of two limits, blanks and multi-byte characters at every position", "anchors": ["common/cutter.cpp: fragmentSegment_, findHardLimitCutPoint_, cutOff"]}
{"id": "C20", "title": "UTF-8 encoding and decoding are inverse", "statement": "Decoding the encoding of any valid code point returns the code point and consumes exactly the bytes written; the checked decoder accepts exactly the shortest-form encodings of valid code points.", "quantifier": "for every code point up to 0x10FFFF outside the surrogate range and every byte string", "why_tests_cant": "over a million code points times all contexts and all malformed byte strings", "anchors": ["utf8/utf8/core.h: validate_next, sequence_length", "utf8/utf8/unchecked.h: append, next"]}
{"id": "C21", "title": "UTF-8 validity is closed under splitting at character boundaries", "statement": "A byte string is accepted by is_valid exactly when it is a concatenation of encodings of valid code points; stepping with the library visits each encoded code point once.", "quantifier": "for every byte string", "why_tests_cant": "infinitely many strings", "anchors": ["utf8/utf8/core.h: find_invalid, is_valid", "utf8/utf8/unchecked.h: distance, next"]}
{"id": "C22", "title": "Segment globs match the intended names", "statement": "A glob matches a file name exactly when the name can be split so that literals match themselves, '?' matches one character and '*' any run of characters.", "quantifier": "for all globs and all names in well-formed UTF-8", "why_tests_cant": "pattern and text are both unbounded; backtracking makes failures depend on whole-string structure", "anchors": ["common/segment_glob.cpp"]}
{"id": "C23", "title": "Path globs treat '**' as any number of directories", "statement": "An Ant-like path glob matches a path exactly when its segments can be matched in order with '**' standing for zero or more whole path segments.", "quantifier": "for all path globs and all paths", "why_tests_cant": "unbounded recursion over two sequences", "anchors": ["common/ant_like_path_glob.cpp"]}
{"id": "C24", "title": "Edit distance is the Levenshtein distance", "statement": "levenshteinDistance(a, b) is the length of a shortest sequence of single-symbol insertions, deletions and replacements turning a into b; hence it is zero only for equal strings, symmetric and satisfies the triangle inequality; the suggested command is one of minimal distance.", "quantifier": "for all pairs of strings and all candidate lists", "why_tests_cant": "optimality quantifies over all edit scripts", "anchors": ["common/edit_distance.hpp"]}
{"id": "C25", "title": "Limit checker applies the right limit", "statement": "isAllowed(argument, value) compares the value with the limit of the smallest declared bound not below the argument, or with the absolute limit, independently of the order in which the limits were added and of earlier queries.", "quantifier": "for every sequence of declarations and queries", "why_tests_cant": "lazily sorted state; all permutations of declarations", "anchors": ["common/limit_checker.cpp"]}
{"id": "C26", "title": "Path parameters are substituted exactly", "statement": "In a file specification every %NAME% is replaced by the value of the parameter and everything else is copied; an unknown name or an unbalanced '%' is an error; substituted values are never expanded again.", "quantifier": "for every specification string and every parameter map", "why_tests_cant": "infinitely many strings and values containing '%' themselves", "anchors": ["common/file_fetcher.cpp: replaceParams_"]}
{"id": "C27", "title": "Compressed position vector returns what was stored", "statement": "After pushing any non-decreasing sequence of positions into a MonotonicVector, at(i) returns the i-th pushed value, for gaps of any size.", "quantifier": "for every non-decreasing sequence and every index below its length", "why_tests_cant": "anchors, saturated differences and the overflow table interact at unbounded lengths and gap sizes", "anchors": ["tools/datastructures/lexica/monotonic_vector.hpp"]}
{"id": "C28", "title": "String vector is an indexed list of strings", "statement": "After any sequence of push_back calls, element i of a StringVector is the i-th pushed string, size() is their number, and find() locates a string that was pushed; a string that was not pushed is reported as missing.", "quantifier": "for every sequence of strings", "why_tests_cant": "unbounded sequences and the sorted/unsorted mode switch", "anchors": ["tools/datastructures/lexica/string_vector.hpp"]}
{"id": "C29", "title": "Binary lexicon returns the value stored under a key", "statement": "A key-value store built from distinct keys returns for each key exactly its value, whatever minimal perfect hash the library generates, and for other keys returns nothing unless the fingerprints collide.", "quantifier": "for every list of distinct keys with values and every minimal perfect hash on them", "why_tests_cant": "the permutation produced by the hash is arbitrary", "anchors": ["tools/datastructures/lexica/key_value_store.cpp", "tools/datastructures/lexica/perfect_hash_index.cpp"]}
{"id": "C30", "title": "Huffman coding is lossless", "statement": "Whatever the symbol frequencies, the code lengths computed form a complete prefix code and decoding the bits written for a sequence of symbols returns that sequence, consuming exactly the bits written.", "quantifier": "for every frequency table with at least one symbol and every symbol sequence", "why_tests_cant": "all frequency tables; tie-breaking order of the heap is unspecified", "anchors": ["tools/lemmatizers/lamerlemma/canonical_huffman.hpp"]}
{"id": "C31", "title": "Bit stream wrapper is lossless", "statement": "Bits written one by one through the bit wrapper are read back in the same order from the stored bytes, also after seeking to a remembered bit position.", "quantifier": "for every bit sequence", "why_tests_cant": "every length modulo 8 and every seek position", "anchors": ["tools/lemmatizers/lamerlemma/canonical_huffman.hpp: BitWrapper"]}
{"id": "C32", "title": "Lemma difference codes decode to the lemma", "statement": "Decoding the prefix/suffix difference code of a (form, lemma) pair with the same form returns the lemma.", "quantifier": "for every pair of words", "why_tests_cant": "pairs of unbounded words; the code packs lengths into single characters", "anchors": ["tools/lemmatizers/lamerlemma/utility_functions.cpp: KLEndEncode, KLEndDecode"]}
{"id": "C33", "title": "Variable-length integer coding is lossless", "statement": "Encoding a list of integers with VarInt and decoding gives the list back for every word size used, and DecodeAndSum returns the sum of the first n numbers.", "quantifier": "for every list of 64-bit integers", "why_tests_cant": "all values and positions", "anchors": ["tools/translators/bonsai/rules/ListCoders.h: VarIntType"]}
{"id": "C34", "title": "Simple9 coding is lossless", "statement": "Encoding a list of numbers below 2^28 with Simple9 and decoding gives the list back, and DecodeAndSum over the encoded words returns the sum of the first n numbers.", "quantifier": "for every list of numbers below 2^28", "why_tests_cant": "the packing of each word depends on the whole remaining list", "anchors": ["tools/translators/bonsai/rules/ListCoders.h: Simple9"]}
{"id": "C35", "title": "Automaton transformations preserve the language", "statement": "Removing epsilon transitions, determinizing, trimming and minimizing an automaton do not change the set of words it accepts, and reversing it reverses exactly the accepted words.", "quantifier": "for every automaton and every word", "why_tests_cant": "infinitely many automata and words", "anchors": ["tools/datastructures/psi_query/fsa_algorithms.hpp: traverse, Reverser, Copier, EpsRemover, Determinizer, reverse, determinize, epsRemove, minimize, prune"]}
{"id": "C36", "title": "Regular operations compute the documented languages", "statement": "unify, concatenate, kleene_option, kleene_plus and kleene_star turn automata for L (and M) into automata for L∪M, L·M, L∪{empty}, L+ and L*.", "quantifier": "for all automata and all words", "why_tests_cant": "infinitely many automata and words", "anchors": ["tools/datastructures/psi_query/fsa_algorithms.hpp: unify, concatenate, kleene_option, kleene_plus, kleene_star"]}
{"id": "C37", "title": "Intersection accepts the common words", "statement": "intersect(a, b) accepts exactly the words accepted by both automata (epsilon transitions and the ANY symbol included when enabled).", "quantifier": "for all pairs of automata and all words", "why_tests_cant": "infinitely many automata and words", "anchors": ["tools/datastructures/psi_query/fsa_algorithms.hpp: Intersector, intersect"]}
{"id": "C38", "title": "Packed automaton behaves like the abstract one", "statement": "The binary automaton (arcs of all states in one array, final flag packed in the offset) answers every query like an automaton with one arc set per state, after any sequence of state and arc additions, final-flag changes and deletions of the last state.", "quantifier": "for every sequence of operations and every query", "why_tests_cant": "offsets of all later states shift with every insertion", "anchors": ["tools/datastructures/psi_query/fsa_bindfsa.hpp"]}
{"id": "C39", "title": "Incremental construction accepts exactly the word list", "statement": "Building an automaton incrementally from a sorted word list accepts exactly the words of the list.", "quantifier": "for every sorted list of words", "why_tests_cant": "state sharing and renumbering depend on the whole list", "anchors": ["tools/datastructures/psi_query/fsa_algorithms.hpp: minimize_incremental, replace_or_register"]}
{"id": "C40", "title": "HTTP parsing does not depend on packet boundaries", "statement": "Feeding the request parser a byte stream in any division into chunks gives the same verdict, the same consumed length and the same request.", "quantifier": "for every byte stream and every way of cutting it into chunks", "why_tests_cant": "exponentially many divisions of unbounded streams", "anchors": ["server/server/request_parser.cpp", "server/server/request_parser.hpp: parse"]}
{"id": "C41", "title": "The request body is delivered completely", "statement": "When a POST request announces n bytes of content, the parser completes exactly after n body bytes and the request's post data is these n bytes.", "quantifier": "for every content length, every body and both the plain and multipart content type", "why_tests_cant": "off-by-one behaviour over all lengths", "anchors": ["server/server/request_parser.cpp: consume, set_post_data_length"]}
{"id": "C42", "title": "The file server never leaves its document root", "statement": "A request is answered with a file only if the decoded path starts with '/' and contains no '..'; URL decoding inverts percent-encoding.", "quantifier": "for every request URI", "why_tests_cant": "infinitely many encodings of dangerous paths", "anchors": ["server/server/request_handler.cpp"]}
{"id": "C43", "title": "Form upload parsing does not depend on packet boundaries", "statement": "Feeding a multipart form body to the form parser in any chunks yields the same fields with the same contents as feeding it at once.", "quantifier": "for every body and every way of cutting it into chunks (while the size limit is not exceeded)", "why_tests_cant": "exponentially many divisions, boundary strings cut anywhere", "anchors": ["server/mpfd-parser/Parser.cpp", "server/mpfd-parser/Field.cpp"]}
{"id": "C44", "title": "The chart parser finds exactly the derivable constituents", "statement": "After running the agenda parser, the chart holds an edge of category A from i to j exactly when A is derivable over that span from the initial edges by the grammar's unary and binary rules, whatever order the agenda serves edges in.", "quantifier": "for every grammar, every initial chart and every agenda policy, when no limit interferes", "why_tests_cant": "completeness quantifies over all derivations and all processing orders", "anchors": ["tools/parsers/gobio/parser/agenda_parser.hpp", "tools/parsers/gobio/parser/agenda_parser.tpl", "tools/parsers/gobio/chart/chart.tpl"]}
{"id": "C45", "title": "UTF-16 conversion round trip", "statement": "utf8to16 of a well-formed UTF-8 string produces exactly the UTF-16 code units of its code points (surrogate pairs above 0xFFFF), and utf16to8 turns them back into the original bytes.", "quantifier": "for every well-formed UTF-8 byte string", "why_tests_cant": "over a million code points in all contexts", "anchors": ["utf8/utf8/unchecked.h: utf16to8, utf8to16"]}
{"id": "C46", "title": "A well-formed HTTP request is parsed into its parts", "statement": "A request head written from a method, a URI, a version and headers is accepted by the request parser exactly at its last byte, with the same method, URI, version and headers; parsing a stream whose numbers stay short is always defined.", "quantifier": "for every well-formed request head and every byte stream", "why_tests_cant": "method, header and value strings are unbounded and the automaton has many states", "anchors": ["server/server/request_parser.cpp: consume", "server/server/request_parser.hpp: parse"]}
{"id": "C48", "title": "A form upload is read back", "statement": "A multipart form written from a list of text fields and files is read back by the form parser: every name gives the last part of that name with its content, file name and type, and no other field appears.", "quantifier": "for every boundary, every list of well-formed parts and every text after the last boundary", "why_tests_cant": "names, contents and boundaries are arbitrary byte strings", "anchors": ["server/mpfd-parser/Parser.cpp", "server/mpfd-parser/Field.cpp"]}
{"id": "C49", "title": "Huffman code is optimal", "statement": "For every table of 2 to 65536 distinct symbols whose frequencies sum up to less than 2^64, the code lengths computed by CanonicalHuffman have the smallest possible frequency-weighted sum among all prefix-free codes for these symbols, whatever the order in which the heap returns elements of equal weight; hence a text whose symbol counts are the frequencies is written in as few bits as any prefix-free code needs.", "quantifier": "all tables of symbols and frequencies, all competing prefix-free codes, all tie orders of the standard heap functions", "why_tests_cant": "optimality compares with infinitely many other codes; tests can only compare with a few, and a wrong merge order still gives a lossless code", "anchors": ["tools/lemmatizers/lamerlemma/canonical_huffman.hpp:33-85", "tools/lemmatizers/lamerlemma/canonical_huffman.hpp:128-174"]}
{"id": "C47", "title": "Form data decoding", "statement": "PsiServer::parseNamesAndValues splits a form body name1=value1&name2=value2&... at '&' and '=' and url-decodes both parts, so every list of names and values encoded by a browser (with non-empty names) is recovered; the function terminates on every body.", "quantifier": "all bodies; all lists of name/value pairs", "why_tests_cant": "the loop's exit depends on where the separators are; only particular malformed bodies make it run for ever", "anchors": ["server/psi_server.cpp:177-237"]}
{"id": "C50", "title": "Generated text in pages", "statement": "PsiServer::include replaces every <!--#psis code --> of a page by the text of the generator registered for the code (by nothing if there is none), calls each generator once in the order of the places, changes nothing else, does not search the generated texts, always terminates, and the Content-Length of the answer is the length of the resulting page.", "quantifier": "all pages, registered functions and session data", "why_tests_cant": "the page is edited in place while positions into it are kept; only pages with particular numbers and sizes of insertions would show a shifted position", "anchors": ["server/psi_server.cpp:71-98", "server/psi_request_handler.cpp:63-68"]}
{"id": "C51", "title": "Sessions are kept apart", "statement": "A request that carries the session cookie given out earlier is answered from, and changes, the data of that session only; a request without a known session gets a fresh id, empty data and a cookie; so in every sequence of requests the answers a client gets are those it would get if the other clients were not there.", "quantifier": "all sequences of requests, all registered functions, all contents of cookies", "why_tests_cant": "a leak between sessions needs a particular interleaving of clients and ids", "anchors": ["server/psi_request_handler.cpp:37-79", "server/session_manager.cpp:9-74", "server/session.cpp:10-52", "common/guid_generator.cpp:17-75"]}
{"id": "C52", "title": "An added edge is the annotation that was asked for", "statement": "When addEdge (or addPartitionToEdge, discard) returns an edge, that edge is in the lattice with the requested ends and annotation item, at least the requested tags and score, exactly the requested plane tags (or, if none were requested, those of the parts), and its newest partition is the requested one.", "quantifier": "for every reachable lattice and every argument", "why_tests_cant": "tags are merged, inherited and promoted on several paths whose choice depends on the whole history", "anchors": ["common/lattice.cpp: Lattice::addEdge", "common/lattice.cpp: Lattice::EdgeSequence::gatherPlaneTags"]}
{"id": "C53", "title": "Perfect hashing numbers the dictionary words by their order", "statement": "For an acyclic deterministic automaton the HashFSA numbers are a bijection: size is the number of accepted words, hash maps the word at position i of the sorted list of accepted words to i, unhash maps i back to the word, and hash of a word that is not accepted is size.", "quantifier": "for every acyclic deterministic automaton and every word", "why_tests_cant": "the numbers are sums of language sizes over all arcs before the path; the set of automata and words is unbounded and the failing cases are rare shapes (accepting start state, missing symbols)", "anchors": ["tools/datastructures/psi_query/fsa_hash_fsa.hpp: HashFSA::HashFSA, wordNumbers, hash, unhash, find"]}
{"id": "C54", "title": "Completed pipelines are complete", "statement": "Whatever pipeline the auto completer chooses, every processor in it finds everything it requires provided by processors before it, the processors the user asked for are there in the asked order with admissible choices, a request that is complete already is left as it is, what is required comes from a processor of the right language, and every other processor was inserted because a later one needs it.", "quantifier": "for every set of factories, every request (sequence of alternatives) and every language set", "why_tests_cant": "the number of registered processors, their requirements and the requests are unbounded, and the search is recursive: tests see only the processors shipped", "anchors": ["framework/auto_completer.cpp: AutoCompleter::complete, completeProcessor_, checkRequired_, findFulfillers_, filtreFulfillers_"]}
{"id": "C55", "title": "The best completed pipeline is chosen", "statement": "The completed pipeline the auto completer chooses is a completion of the request and no other completion it can reach has higher quality, or equal quality and smaller time estimate; it reports failure exactly if there is no completion.", "quantifier": "for every set of factories and every request for which the search ends", "why_tests_cant": "requires comparing against all completions; a test compares against the few known for its example", "anchors": ["framework/auto_completer.cpp: AutoCompleter::complete, checkSolution_, countQualityScore_, countTimeEstimate_"]}
{"id": "C56", "title": "Completing a pipeline ends", "statement": "The search for processors to insert ends for every set of factories and every request, with a pipeline or with a failure.", "quantifier": "for every set of factories and every request", "why_tests_cant": "non-termination depends on circles in the requirements of factories which the shipped ones do not have", "anchors": ["framework/auto_completer.cpp: completeProcessor_, isViciousCircle_"]}
{"id": "C57", "title": "Aliases stand for exactly the processors they lead to", "statement": "After any sequence of alias declarations, the destinations of a name are exactly the names that are no aliases and are reached from it through declared aliases, and the aliases of a name are exactly the aliases from which it is reached.", "quantifier": "for every sequence of declarations and every name", "why_tests_cant": "chains and circles of declarations of any length; the shipped aliases are at most two steps long", "anchors": ["framework/aliaser.cpp: Aliaser::addAlias, addVoidAlias, getAllDestinations, getAllAliases, findDestinations_, findAliases_"]}
{"id": "C58", "title": "Compiled rule conditions mean what is written", "statement": "Running the compiled condition of a grammar rule gives true exactly if the condition, evaluated from left to right with short-circuit `,`, `;`, `=>` and `::`, is true, and it leaves exactly the attributes, score, chosen tree and printed values the evaluation gives, whatever was on the stack before.", "quantifier": "for every condition (expression tree of any size), every value of the attributes and every stack", "why_tests_cant": "compiler correctness: conditions nest without limit and the compiler removes instructions by looking at the code before; tests run a few conditions", "anchors": ["tools/parsers/gobio/rules/compile_gruleexpression.tpl: compile_gruleexpression, compile_gruleexpression_node, is_top_true, is_jump_or_ifnjump_to", "tools/parsers/gobio/rules/expression_runner.tpl: run", "tools/parsers/gobio/translator/grparser.y"]}
{"id": "C59", "title": "Compiled rule conditions always end", "statement": "The code compiled from any expression tree ends in STOP, all its jumps lead forward to an instruction of the code, and therefore running it ends after at most as many steps as there are instructions.", "quantifier": "for every expression tree, every stack and every frame", "why_tests_cant": "the asserts for loops and bad addresses are checked only for the conditions that happen to be compiled", "anchors": ["tools/parsers/gobio/rules/compile_gruleexpression.tpl: compile_gruleexpression", "tools/parsers/gobio/rules/compiled_expression.tpl: find_loops, find_badindexes", "tools/parsers/gobio/rules/expression_runner.tpl: run"]}
{"id": "C60", "title": "Rows of the PSI format are read as they were written", "statement": "Reading a row (or a whole file, with or without header) that the PSI writer wrote gives back the number, beginning, end, text, tags, annotation text, category, score, attributes and partitions of each edge; two different rows are never the same line.", "quantifier": "for every row and every list of rows of any size, and every width of the cells", "why_tests_cant": "text, categories, tags, roles and attributes are arbitrary strings; the escaping of the writer and seven nested grammars of the reader must fit together for all of them", "anchors": ["formats/psi/psi_writer/psi_lattice_writer.cpp: printEdge, doRun", "formats/psi/psi_reader/psi_lattice_reader.hpp: PsiLRGrammar, PsiLRSequenceGrammar, PsiLRItem", "formats/psi/psi_reader/psi_lattice_reader.cpp: doRun", "common/aligning_writer_worker.cpp: printTableRow_"]}
{"id": "C61", "title": "Partitions in the PSI format are read as they were written", "statement": "Reading the list of partitions the PSI writer wrote for an edge gives back each partition: the numbers and roles of its edges in order, its tags and its score, also those that are left out because they are the same as those of the edge.", "quantifier": "for every list of partitions with any number of edges", "why_tests_cant": "partitions are separated by characters that may be part of what they separate; tests have short partitions without roles", "anchors": ["formats/psi/psi_writer/psi_lattice_writer.cpp: printEdge", "formats/psi/psi_reader/psi_lattice_reader.hpp: PsiLRPartitionsGrammar, PsiLRPartitionGrammar", "formats/psi/psi_reader/psi_lattice_reader.cpp: doRun"]}
{"id": "C62", "title": "Brackets written into the text are complete and nested", "statement": "The output of the bracketing writer is the text with the brackets of every edge in it: without the brackets it is the text, the brackets of an edge enclose exactly the text of the edge, and brackets are properly nested if no two edges cross.", "quantifier": "for every text of whole UTF-8 symbols and every set of edges between symbols, with any number of edges at the same places", "why_tests_cant": "which brackets come first at a place depends on all edges that begin or end there; the order comes from an index that runs backward modulo the size", "anchors": ["formats/bracketing/bracketing-writer/bracketing_lattice_writer.hpp: doRun_"]}
{"id": "C63", "title": "Brackets of edges at the same places are in the order in which the edges were made", "statement": "When several edges are at the same places, putting their brackets in order ends, loses nothing, and puts the brackets of an edge outside those of the edge it was made from.", "quantifier": "for every list of edges that can be numbered such that edges are made from edges with smaller numbers", "why_tests_cant": "the loops start again after each exchange; both that this ends and what holds at the end depend on the whole list", "anchors": ["formats/bracketing/bracketing-writer/bracketing_lattice_writer.hpp: doRun_", "formats/bracketing/bracketing-writer/edge_print_data.hpp: swap"]}
{"id": "C64", "title": "Edges in a set are ordered", "statement": "The comparison of edges that is used for sets of edges is a strict order: irreflexive, asymmetric, transitive, and total on edges that differ.", "quantifier": "for all edges", "why_tests_cant": "a set behaves well in most runs even if its comparison is no order", "anchors": ["formats/bracketing/bracketing-writer/edge_data.hpp: operator<"]}
{"id": "C65", "title": "Patterns print what their parts stand for", "statement": "Printing edges with patterns gives, for each edge and each pattern, the concatenation of what the parts of the pattern stand for (tags, category, text, attributes, score, role, characters); a list in a pattern is what its inner pattern gives for all edges that agree in the fields named, with the separator between.", "quantifier": "for all patterns of these parts, all edges and any number of edges", "why_tests_cant": "patterns are strings given by the user; parts with brackets are found by searching for the closing bracket in the rest", "anchors": ["formats/bracketing/bracketing-writer/bracket_printer.hpp: print_, close_"]}
{"id": "C66", "title": "For each vertex the right edges are printed", "statement": "At each vertex visited, the writer prints as one alternative the edges with the basic tag; if there are none, those with the first fallback tag that has some; only the first of them without alternatives; never discarded ones, and blank ones only if asked for. Nothing of one vertex is carried over to another.", "quantifier": "for all lattices, settings, and any number of vertices", "why_tests_cant": "which queue an edge is taken from depends on all other edges at the vertex, and queues are kept from vertex to vertex", "anchors": ["common/lattice_iter_writer.cpp: run"]}
{"id": "C67", "title": "Groups are opened and closed in turn", "statement": "For every tag the writer was asked to group by, groups are opened and closed in turn; when edges with the tag follow each other, each gets a group with exactly what is within it.", "quantifier": "for all lattices, settings, tags and any number of vertices", "why_tests_cant": "whether a group is opened depends on where the last one ended, across any number of vertices", "anchors": ["common/lattice_iter_writer.cpp: run"]}
{"id": "C68", "title": "The simple output puts separators between, never before or after", "statement": "The simple output is the elements of an alternative with the separator of alternatives between, the alternatives with the word separator between, and the groups that are not empty with the separator of their tag between.", "quantifier": "for all texts, separators and lattices", "why_tests_cant": "separators are put when something comes after something; this depends on which of the earlier parts were empty", "anchors": ["formats/simple/simple_lattice_writer_stream_output_iterator.cpp: doPutElement, doOpenAlternative, doCloseAlternative, doOpenGroup, doCloseGroup, doFlush", "common/lattice_iter_writer.cpp: run"]}
{"id": "C69", "title": "The JSON output is JSON for the elements printed", "statement": "The JSON output is a JSON text for the array of groups of alternatives (an alternative of one element is that element, empty groups are left out); strings are quoted so that they stand for themselves; annotation items are objects with their category, text and values.", "quantifier": "for all strings, items and lattices", "why_tests_cant": "strings can have any bytes, arrays any depth and length", "anchors": ["formats/json-simple/json_lattice_writer_output.cpp: push, openNewSubArray, closeSubArray_, createEscapedJSONString_", "formats/json-simple/json_lattice_writer_output_iterator.cpp", "common/lattice_iter_writer.cpp: run"]}
{"id": "C70", "title": "The SRX segmenter cuts all of the text and comes to an end", "statement": "Whatever the rules, cutting a text into segments comes to an end; the segments follow each other from the beginning of the text to its end, none is empty, and all begin and end at characters.", "quantifier": "for all well-formed texts and all rules", "why_tests_cant": "each rule keeps where it searches next and its last break from segment to segment; whether they always move on depends on all of the rules and the whole text", "anchors": ["tools/segmenters/srx/srx_segmenter.cpp: performCutOff, updatePosition_, checkBreakPoint_"]}
{"id": "C71", "title": "The SRX segmenter breaks where the standard says", "statement": "A text is broken at exactly those positions at which the first rule (in order) that matches there is a breaking rule.", "quantifier": "for all well-formed texts and all rules", "why_tests_cant": "the search is incremental, each rule is searched from where it was left, with only its leftmost match kept; the standard speaks about every position and every rule", "anchors": ["tools/segmenters/srx/srx_segmenter.cpp: performCutOff, updatePosition_, checkBreakPoint_, updateBreakingRuleIndex_, updateNonBreakingRuleIndex_", "tools/segmenters/srx/srx_segmenter.cpp: processRule_"]}
{"id": "C72", "title": "Groups in patterns of rules are made non-capturing", "statement": "In a pattern of a rule every opening parenthesis that is neither escaped nor followed by a question mark is replaced by `(?:`, and nothing else is changed; so no group of the pattern captures and character classes stay as they are.", "quantifier": "for all patterns", "why_tests_cant": "whether a parenthesis is escaped depends on any number of backslashes before it", "anchors": ["tools/segmenters/srx/srx_segmenter.cpp: makeAllParensNonCapturing_", "common/escaping.cpp: isEscaped"]}
{"id": "C73", "title": "The rules of a language are those the document maps to it", "statement": "The rules used for a language are those of the rule lists named by the language maps that match it, with cascading all of them, otherwise the first; in the order of the maps.", "quantifier": "for all SRX documents and languages", "why_tests_cant": "maps may be at several places and at two depths, in any order, with any number of lists", "anchors": ["tools/segmenters/srx/srx_rules.cpp: findLanguageRuleNames_, processMapRules_, processMapRule_, processLanguageMap_", "tools/segmenters/srx/srx_rules.hpp: getRules, processLanguageRules_, processLanguageRule_"]}
{"id": "C74", "title": "Items of one manager keep their own attributes", "statement": "Whatever items are made, copied, changed and added to each other under one manager: each has exactly the attributes it was given, with the last values; an attribute without a value reads as NULL; attributes are listed in the order in which they were first used; only a 129th attribute (or an item that does not exist) makes the program fail.", "quantifier": "for all sequences of operations on any number of items", "why_tests_cant": "values are kept at positions numbered by the manager, which all items share; an item made early has a shorter vector than the numbers given out later", "anchors": ["common/annotation_item_manager.cpp: setValue, getValue, getValueAsString, getValues, getValuesAsZvalues, addValues", "common/annotation_item.cpp: setValue, getValue, attributes", "common/annotation_item_manager.hpp: m_ (bimap)"]}
{"id": "C75", "title": "Equality and hash of annotation items", "statement": "operator== of items is an equivalence relation, equal items have equal hashes, and items are equal exactly when they have the same category, text and attributes with the same values.", "quantifier": "for all items, resp. all items made by any sequence of operations", "why_tests_cant": "the vectors compared have different lengths depending on the order in which attributes were first used in other items", "anchors": ["common/annotation_item.cpp: operator==, getHash"]}
{"id": "C76", "title": "Values given as strings are read back", "statement": "A string set as the value of an attribute is read back as the same string.", "quantifier": "for all strings", "why_tests_cant": "strings that look like integers are stored as numbers with a tag bit, and some words stand for special values", "anchors": ["common/annotation_item_manager.cpp: setValue, getValueAsString", "common/zvalue.cpp: zvalue_to_string, itoa", "common/annotation_item_manager.cpp: from_string, to_string"]}
{"id": "C77", "title": "Conversion rules without alternatives act on each item by itself", "statement": "Applying rules whose commands have no alternatives ends; every item stays where it is; an item that does not meet the words and conditions of a rule is left as it is by it, one that does is changed by the commands in order, or removed by SKIP.  A condition holds for an attribute that was given the same value.", "quantifier": "for all rules, all vectors of items and all values", "why_tests_cant": "the vector and the shared manager of attributes change while rules are applied; conditions, references and values interact for any contents", "anchors": ["tools/converters/unumsunt/unumsunt_rule.cpp: apply", "tools/converters/unumsunt/unumsunt.cpp: convertTags"]}
{"id": "C78", "title": "Alternatives give one item for each", "statement": "A command with alternatives makes one item for each of them, which differ just in it; applying the rule ends.", "quantifier": "for all rules and items", "why_tests_cant": "new items are put at the end of the vector that is being gone through, so that they are visited by the same loop", "anchors": ["tools/converters/unumsunt/unumsunt_rule.cpp: apply"]}
{"id": "C79", "title": "Maps convert categories, attributes and values", "statement": "The converted item has for each attribute of the item the attribute it is mapped to, with the value its value is mapped to, and nothing else; its category is mapped; then the rules are applied.", "quantifier": "for all items, maps and rules without alternatives", "why_tests_cant": "attributes are listed in the order of a manager shared with other items, and two attributes may be mapped to one", "anchors": ["tools/converters/unumsunt/unumsunt.cpp: convertTags"]}
{"id": "C80", "title": "Rule files are read as they are written", "statement": "A line with conditions, words and commands, with any white space around them, is read as a rule with just these; a line with several commands with alternatives as rules that together do what it says; all lines of a file are read.", "quantifier": "for all rule lines of the format and all files", "why_tests_cant": "names and values are arbitrary strings; splitting depends on the number and order of commands", "anchors": ["tools/converters/unumsunt/unumsunt.cpp: Unumsunt::Unumsunt", "tools/converters/unumsunt/unumsunt_rule.cpp: addCommand, addCondition, addWord, makeSkip, clearCommands", "tools/converters/unumsunt/unumsunt.hpp: UnumsuntRuleGrammar, UnumsuntAssignmentGrammar"]}
{"id": "C81", "title": "A cutter's items become consecutive edges over the right places", "statement": "Running a cutter (tokenizer, segmenter) from a vertex adds for each item it cuts off an edge with the item and the cutter's tags over the edges of the path that make up the text of the item; these edges follow one another from the beginning of the path to its end, and no other edge is added.", "quantifier": "for all cutters, lattices reached by public operations, and masks", "why_tests_cant": "the edges are handed out by counting lengths, which is independent of where the cutter cuts; any number of items and edges", "anchors": ["common/lattice.cpp: runCutterOnEdge_", "common/lattice.cpp: cutSequenceByTextLength_", "common/lattice.cpp: EdgeSequence::Iterator", "common/cutter.hpp: Cutter"]}
{"id": "C82", "title": "A cutter is run once on the text of each super edge", "statement": "runCutter runs the cutter on the text of each edge that matches the super mask, once, and items stay within that edge.", "quantifier": "for all cutters, lattices and masks", "why_tests_cant": "the lattice changes while its vertices and edges are gone through; the path from the source of an edge need not end at its target", "anchors": ["common/lattice.cpp: runCutter", "common/lattice.cpp: runCutterOnEdge_"]}
{"id": "C83", "title": "MD5 is that of RFC 1321", "statement": "The digest of a message that is handed over in any pieces is the one RFC 1321 defines (constants from the sine function, padding, little-endian words), whatever was in memory before; it is printed with two hexadecimal digits for each byte, and it does not change after finalize.", "quantifier": "for all messages and all ways to cut them into pieces", "why_tests_cant": "any length up to 2^64 bits; the 64 steps are written out by hand with 64 constants; the buffer carries over between calls", "anchors": ["common/md5.cpp: transform", "common/md5.cpp: update", "common/md5.cpp: finalize", "common/md5.cpp: hexdigest", "common/md5.cpp: md5"]}
{"id": "C84", "title": "Stored files are kept", "statement": "After any sequence of calls of the file storage, the file at each path that has been returned has the content that was stored, or, if stored by digest, a content with the same digest; no other file is changed.", "quantifier": "for all sequences of calls, contents, extensions, dates and random strings", "why_tests_cant": "any number of calls in any order; names come from two sources (ids and digests), and must never meet", "anchors": ["common/file_storage.cpp: storeFile", "common/file_storage.cpp: storeFileByMD5", "common/file_storage.cpp: storeFile_", "common/guid_generator.cpp: getGUID"]}
{"id": "C85", "title": "Union, intersection and direction of word alignments", "statement": "symal prints for each sentence pair one line with exactly the links of the direct alignment, of the inverse alignment, of both, or of at least one of them, as asked for, each link once, positions counted from 0.", "quantifier": "for all sentence lengths and all pairs of alignments", "why_tests_cant": "any lengths; the union is made of two loops, which must not print a link twice", "anchors": ["tools/translators/bonsai/utils/binaries/symal.cpp: prunionalignment", "tools/translators/bonsai/utils/binaries/symal.cpp: printersect", "tools/translators/bonsai/utils/binaries/symal.cpp: printtgttosrc", "tools/translators/bonsai/utils/binaries/symal.cpp: printsrctotgt"]}
{"id": "C86", "title": "Growing of word alignments", "statement": "The grow heuristics (with or without diagonals, final steps, both words uncovered) end and print an alignment as it is defined: starting with the intersection, links of the union next to a present one that link an unlinked word are added one by one until there are none; then, if asked for, further links of the inverse and of the direct alignment. The result lies between the intersection and the union, and with final steps each word with a link in the union has a link.", "quantifier": "for all sentence lengths, alignments and options", "why_tests_cant": "the set is gone through while points are inserted; termination depends on the number of uncovered words; order matters", "anchors": ["tools/translators/bonsai/utils/binaries/symal.cpp: printgrow"]}
{"id": "C87", "title": "Descriptions of a Morfologik tag", "statement": "A tag of the dictionary Morfologik is a list of attributes, each a list of alternatives. The parser returns exactly the combinations of one alternative for each category, each one once; a category has the alternatives of its first attribute, unknown attributes do not count.", "quantifier": "for all tags, i.e. all strings", "why_tests_cant": "any number of attributes and alternatives; the number of results is exponential", "anchors": ["common/morfologik_tags_parser.cpp: MorfologikTagsParser::parse", "common/morfologik_tags_parser.cpp: MorfologikTagsParser::parseSimple", "common/morfologik_tags_parser.cpp: MorfologikTagsParser::expandDescriptions_", "common/morfologik_tags_parser.cpp: MorfologikTagsParser::expandSingleDescription_"]}
{"id": "C88", "title": "Lexeme and forms of a Morfologik tag", "statement": "The attributes of a tag are divided between the lexeme (part of speech, gender of nouns, aspect of verbs and participles, alternatives joined by dashes) and its forms (all combinations of alternatives of the rest); none belongs to both.", "quantifier": "for all tags", "why_tests_cant": "the two functions find the part of speech in different ways and count alternatives on the way", "anchors": ["common/morfologik_tags_parser.cpp: MorfologikTagsParser::getLexemeAttributes", "common/morfologik_tags_parser.cpp: MorfologikTagsParser::getFormAttributes", "common/morfologik_tags_parser.cpp: MorfologikTagsParser::removeLexemeAttributes_", "common/morfologik_tags_parser.cpp: MorfologikTagsParser::getPartOfSpeechTag_"]}
{"id": "C89", "title": "Escaped characters are restored", "statement": "`unescape` returns a text exactly if the input is a way to write it with `&name;`; it throws if a name is unknown; it restores what was escaped; it always ends.", "quantifier": "for all strings", "why_tests_cant": "the strings are of any length, and one that makes the loop run for ever is not found by waiting", "anchors": ["tools/translators/bonsai/utils/binaries/XmlTree.cpp: unescape"]}
{"id": "C90", "title": "Lines are cut into tags and texts", "statement": "`TokenizeXml` cuts a line into tags, from `<` to the next `>`, and the texts between them; put together again they are the line.", "quantifier": "for all lines", "why_tests_cant": "any number and arrangement of brackets", "anchors": ["tools/translators/bonsai/utils/binaries/XmlTree.cpp: TokenizeXml", "tools/translators/bonsai/utils/binaries/XmlTree.cpp: isXmlTag"]}
{"id": "C91", "title": "Attributes of a tag", "statement": "`ParseXmlTagAttribute` returns the value of the attribute with the given name, the empty string if there is none.", "quantifier": "for all tags and names, for all lists of attributes", "why_tests_cant": "names and values of any length, any number of other attributes", "anchors": ["tools/translators/bonsai/utils/binaries/XmlTree.cpp: ParseXmlTagAttribute"]}
{"id": "C92", "title": "Sentences with tags", "statement": "`ProcessAndStripXMLTags` accepts a line exactly if the tags are properly nested and each has a node of at least one word; it leaves the texts of the line, with the same words in the same order, and adds one node for each element, with the label and the positions of its first and last word.", "quantifier": "for all lines, escaped or not", "why_tests_cant": "nesting of any depth; rejection of all other lines", "anchors": ["tools/translators/bonsai/utils/binaries/XmlTree.cpp: ProcessAndStripXMLTags", "tools/translators/bonsai/utils/binaries/XmlTree.cpp: Tokenize", "tools/translators/bonsai/utils/binaries/XmlTree.cpp: Trim", "tools/translators/bonsai/utils/binaries/XmlTree.cpp: TrimXml"]}
{"id": "C93", "title": "Nodes are connected to the tree", "statement": "After the nodes of a tree were added in the order in which their tags are closed, `ConnectNodes` sets the root, the parent of each node and the children of each node in their order.", "quantifier": "for all trees", "why_tests_cant": "trees of any size and shape; nodes over the same words", "anchors": ["tools/translators/bonsai/utils/binaries/SyntaxTree.cpp: SyntaxTree::ConnectNodes", "tools/translators/bonsai/utils/binaries/SyntaxTree.cpp: SyntaxTree::AddNode"]}
{"id": "C94", "title": "Spans are split at their children", "statement": "`Parse` ends and returns, for each span of at least two words over which there is a node, the points at which it is split into the longest nodes inside of it; for a tree these are the boundaries of the children.", "quantifier": "for all sets of nodes, for all trees", "why_tests_cant": "the loop only ends if each round covers a further word", "anchors": ["tools/translators/bonsai/utils/binaries/SyntaxTree.cpp: SyntaxTree::Parse", "tools/translators/bonsai/utils/binaries/SyntaxTree.cpp: SyntaxTree::HasNode", "tools/translators/bonsai/utils/binaries/SyntaxTree.cpp: SyntaxTree::GetNodes"]}
{"id": "C95", "title": "Languages are recognised by their letters", "statement": "`guessLanguageByLetters` returns the first language such that the text has words and each word has one of the letters of the language, and `unknown` if there is none; a text that is not valid UTF-8 is not judged.", "quantifier": "for all texts and languages", "why_tests_cant": "any number of words and languages; the state of the loop is carried over spaces", "anchors": ["tools/recognizers/langguesser/lang_guesser.cpp: LangGuesser::guessLanguageByLetters", "tools/recognizers/langguesser/lang_guesser.cpp: LangGuesser::isOneOfTheLanguageSpecificLetters"]}
{"id": "C96", "title": "Languages are recognised by their bigrams", "statement": "`countBigramsInText` counts the bigrams of a text in the cells of a table, and `guessLanguageByBigramModel` returns the language whose table is nearest to their frequencies.", "quantifier": "for all valid texts and all tables of frequencies between 0 and 1", "why_tests_cant": "texts of any length; that no language is farther than the start value is a matter of all tables", "anchors": ["tools/recognizers/langguesser/bigram_language_model.cpp: BigramLanguageModel::countBigramsInText", "tools/recognizers/langguesser/bigram_language_model.cpp: BigramLanguageModel::createFrequencyTableFromCountTable", "tools/recognizers/langguesser/bigram_language_model.cpp: BigramLanguageModel::sumOfCounts", "tools/recognizers/langguesser/lang_guesser.cpp: LangGuesser::guessLanguageByBigramModel", "tools/recognizers/langguesser/lang_guesser.cpp: LangGuesser::distance"]}
{"id": "C97", "title": "The language guessed", "statement": "`guessLanguage` returns the forced language, a language of the guesser, or the default one: short texts are judged by letters, long ones by bigrams; with `--force` the answer is always one of the languages; a guesser for selected languages is made exactly if they are known.", "quantifier": "for all texts, guessers and selections", "why_tests_cant": "any text at all must get a language in the forced mode", "anchors": ["tools/recognizers/langguesser/lang_guesser.cpp: LangGuesser::guessLanguage", "tools/recognizers/langguesser/lang_guesser.cpp: LangGuesser::initLanguages", "tools/recognizers/langguesser/lang_guesser.cpp: LangGuesser::LangGuesser"]}
{"id": "C98", "title": "The iterator over the vertices", "statement": "`VertexIterator` yields every vertex of the lattice once: without loose vertices the positions between characters in the order of the text (those at an end of an edge, if useless ones are skipped), with loose vertices sorted so that the source of an edge stands before its target; behind the last vertex `next` throws.", "quantifier": "for all reachable lattices with well-formed texts and all topological orders that the library may return", "why_tests_cant": "lattices of any size with any number of loose vertices; the order depends on the whole graph", "anchors": ["common/lattice.cpp: Lattice::VertexIterator::VertexIterator", "common/lattice.cpp: Lattice::VertexIterator::hasNext", "common/lattice.cpp: Lattice::VertexIterator::next", "common/lattice.cpp: Lattice::VertexIterator::nextRealVertex_", "common/lattice.cpp: Lattice::VertexIterator::shouldBeSkipped_", "common/lattice.cpp: Lattice::VertexIterator::f_"]}
{"id": "C99", "title": "The iterators over the sorted edges", "statement": "`EdgesSortedBySourceIterator` and `EdgesSortedByTargetIterator` yield every edge that matches the mask once, sorted by the source or by the target.", "quantifier": "for all reachable lattices with well-formed texts, all masks and both kinds of iterators", "why_tests_cant": "lattices of any size with any edges", "anchors": ["common/lattice.cpp: Lattice::SortedEdgesIterator::SortedEdgesIterator", "common/lattice.cpp: Lattice::SortedEdgesIterator::hasNext", "common/lattice.cpp: Lattice::SortedEdgesIterator::next", "common/lattice.cpp: Lattice::EdgesSortedBySourceIterator::EdgesSortedBySourceIterator", "common/lattice.cpp: Lattice::EdgesSortedByTargetIterator::EdgesSortedByTargetIterator"]}
{"id": "C100", "title": "Parents and children of edges", "statement": "`getParent` returns the first edge matching the mask of those that the edge is made of (in the order of the partitions); `getChildren` returns the edges between the same vertices that match the mask and are made of the given edge.", "quantifier": "for all reachable lattices, edges and masks", "why_tests_cant": "the partitions of edges can be of any number and length, as lists or as ranges of symbols", "anchors": ["common/lattice.cpp: Lattice::getChildren", "common/lattice.cpp: Lattice::getParent"]}
{"id": "C101", "title": "The origin of an edge", "statement": "`getEdgeOrigin` ends and returns the nearest ancestor of an edge that has the tag.", "quantifier": "for all reachable lattices, edges and names of tags", "why_tests_cant": "chains of edges made one of another can have any length; the lattice does not forbid circles", "anchors": ["common/lattice.cpp: Lattice::getEdgeOrigin", "common/lattice.cpp: Lattice::getEdgeLemma", "common/lattice.cpp: Lattice::getParent"]}
{"id": "C102", "title": "Paths that skip blanks", "statement": "`getPathWithSkipping` and `getPathSkippingBlanks` end and yield a path that always takes the last edge matching the mask or, where none matches, one that is to be skipped, up to a vertex where there is neither.", "quantifier": "for all reachable lattices without loose vertices, masks, vertices and predicates", "why_tests_cant": "lattices of any size; the path depends on the order of the edges at each vertex", "anchors": ["common/lattice.hpp: Lattice::getPathWithSkipping", "common/lattice.cpp: Lattice::getPathSkippingBlanks", "common/lattice.cpp: Lattice::isBlank"]}
{"id": "C103", "title": "Cardinal numbers in words can be read back", "statement": "The words `integer2pltext` writes for a string of digits are the Polish cardinal numeral of that very number (masculine, feminine, genitive, genitive feminine), so different numbers get different words; a number that cannot be written is refused with `#`.", "quantifier": "for all strings of digits, whatever their length, and the four forms", "why_tests_cant": "there are 10^660 numbers in the range of the names, each with groups, governments of thousands, exceptions for one and two", "anchors": ["tools/translators/transferer/numconversion.cpp: integer2pltext", "tools/translators/transferer/numconversion.cpp: convert_three_digit_group", "tools/translators/transferer/numconversion.cpp: convert_cardinal_part", "tools/translators/transferer/numconversion.cpp: select_government", "tools/translators/transferer/numconversion.cpp: make_large_unit"]}
{"id": "C104", "title": "Ordinal numbers in words", "statement": "The words `integer2pltext` writes for an ordinal form are the Polish ordinal of the number: a cardinal number followed by the ordinal end for the last group not of zeros, powers of a thousand making one word with their number.", "quantifier": "for all strings of digits below 10^660 and the four genders", "why_tests_cant": "the form depends on which of any number of groups is the last that is not of zeros", "anchors": ["tools/translators/transferer/numconversion.cpp: integer2pltext", "tools/translators/transferer/numconversion.cpp: convert_noncardinal_part", "tools/translators/transferer/numconversion.cpp: make_large_unit"]}
{"id": "C105", "title": "Decimals, signs, per cents, sums and fractions in words", "statement": "`num2pltext` says a number with a comma as a whole and tenths, hundredths, thousandths, a half, or digit groups after *przecinek*; signs, per cents, sums and fractions are said with their words, and what cannot be said is refused with `#`.", "quantifier": "for all numerals with parts of any length", "why_tests_cant": "parts of any length on both sides of the comma, agreement of the denominator with the numerator", "anchors": ["tools/translators/transferer/numconversion.cpp: num2pltext", "tools/translators/transferer/numconversion.cpp: decimalfraction2pltext", "tools/translators/transferer/numconversion.cpp: fractional2pltext", "tools/translators/transferer/numconversion.cpp: equals_one_half", "tools/translators/transferer/numconversion.cpp: join3"]}
{"id": "C106", "title": "When numbers in words read out of bounds", "statement": "`num2pltext` has defined behaviour for every string: it never reads before the beginning of a string.", "quantifier": "for all strings and all three types of numbers", "why_tests_cant": "whether an empty part reaches `equals` depends on the order of signs, per cents, commas and operators in the whole string", "anchors": ["tools/translators/transferer/numconversion.cpp: num2pltext", "tools/translators/transferer/numconversion.cpp: equals", "tools/translators/transferer/numconversion.cpp: integer2pltext"]}
{"id": "C107", "title": "Differences and ranges in words", "statement": "`a-b` is said as a difference (*minus*) exactly when `a` is greater than `b`, otherwise as a range (*od … do …*, in the genitive).", "quantifier": "for all pairs of numbers, whole or with a comma", "why_tests_cant": "numbers of any length; the comparison is on strings", "anchors": ["tools/translators/transferer/numconversion.cpp: bigger", "tools/translators/transferer/numconversion.cpp: num2pltext"]}
{"id": "C108", "title": "As many codes of inflection as words", "statement": "The inflection returned with a number has exactly one code for each word of its text.", "quantifier": "for all numbers and forms", "why_tests_cant": "codes are put together along another path than the words and any number of words is possible", "anchors": ["tools/translators/transferer/numconversion.cpp: make_tinfl", "tools/translators/transferer/numconversion.cpp: integer2pltext", "tools/translators/transferer/numconversion.cpp: prepend", "tools/translators/transferer/numconversion.cpp: join2"]}
{"id": "C109", "title": "Inserting text into a lattice", "statement": "After `correctionInsert(here, text)` the text can be read from `here` along symbol edges, followed by anything that could be read from `here` before; nothing that could be read is lost.", "quantifier": "for all reachable lattices, positions and well-formed texts of any length", "why_tests_cant": "the lattices reachable by any series of additions, annotations and earlier corrections are unbounded, and so are the texts; the claim is about all paths in the result", "anchors": ["common/lattice.cpp: correctionInsert", "common/lattice.cpp: firstOutEdge"]}
{"id": "C110", "title": "Erasing text from a lattice", "statement": "After `correctionErase(from, to)` what followed the erased range can be read from its beginning; nothing that could be read is lost.", "quantifier": "for all reachable lattices and ranges of symbols of any length", "why_tests_cant": "unbounded lattices, ranges and continuations", "anchors": ["common/lattice.cpp: correctionErase", "common/lattice.cpp: firstOutEdge"]}
{"id": "C111", "title": "Replacing text in a lattice", "statement": "After `correctionReplace(from, to, text)` the text can be read from `from`, followed by what followed the replaced range; nothing that could be read is lost.", "quantifier": "for all lattices with an orderly history, ranges of symbols and well-formed texts, shorter, longer or of the same length", "why_tests_cant": "unbounded lattices, ranges and texts; the effect depends on the history of the lattice", "anchors": ["common/lattice.cpp: correctionReplace", "common/lattice.cpp: correctionInsert", "common/lattice.cpp: correctionErase"]}
{"id": "C112", "title": "Character sets of one byte", "statement": "In each of the single-byte character sets of tiniconv, a character is written as a byte if and only if that byte is read as the character, and the bytes stand for the characters that the standard tables say.", "quantifier": "for all 28 tables, all bytes and all character numbers (unbounded)", "why_tests_cant": "the encoders are hand-made range tests over the whole range of character numbers; a test samples a few characters", "anchors": ["tiniconv/encdec/cp1250.h: cp1250_mbtowc, cp1250_wctomb", "tiniconv/encdec/iso8859_2.h: iso8859_2_mbtowc, iso8859_2_wctomb", "tiniconv/encdec/koi8_r.h", "tiniconv/encdec/mac_cyrillic.h", "tiniconv/encdec/cp866.h"]}
{"id": "C113", "title": "UTF-8 of tiniconv", "statement": "The decoder reads a character if and only if the bytes begin with its UTF-8 encoding; the encoder writes that encoding, if there is room; a proper beginning of a character is told from an illegal sequence.", "quantifier": "for all byte strings and all character numbers", "why_tests_cant": "all byte strings and all 2^31 characters", "anchors": ["tiniconv/encdec/utf8.h: utf8_mbtowc, utf8_wctomb"]}
{"id": "C114", "title": "UTF-7 of tiniconv", "statement": "Every text in UTF-7 (RFC 2152) is converted to the same text in UTF-8; every Unicode text is converted to UTF-7 so that it can be read back.", "quantifier": "for all texts of any length, with any division into direct and base64 parts", "why_tests_cant": "the state carries bits from one character to the next over texts of any length", "anchors": ["tiniconv/encdec/utf7.h: utf7_mbtowc, utf7_wctomb, utf7_reset", "tiniconv/tiniconv.c: tiniconv_convert"]}
{"id": "C115", "title": "UCS-2 of tiniconv", "statement": "Text in UCS-2 with byte order marks anywhere is read as the characters it stands for; text without U+FEFF is written so that it can be read back.", "quantifier": "for all texts of any length and all sequences of byte order marks", "why_tests_cant": "unbounded texts with a state", "anchors": ["tiniconv/encdec/ucs2.h: ucs2_mbtowc, ucs2_wctomb", "tiniconv/tiniconv.c: tiniconv_convert"]}
{"id": "C116", "title": "Conversion of texts by tiniconv", "statement": "A text all of whose characters the other encoding has is converted as a whole, or, with less room, up to some character, and the conversion can then be continued; it stops before illegal bytes and before characters that the other encoding has not; it never aborts and never leaves the buffers.", "quantifier": "for all pairs of the 31 modelled encodings, all texts, all sizes of the buffer, all series of calls", "why_tests_cant": "all pairs of encodings with all sizes of the buffer and all divisions of the text into calls", "anchors": ["tiniconv/tiniconv.c: tiniconv_init, tiniconv_convert", "tiniconv/tiniconv_desc.c: tiniconv_charset_map"]}
{"id": "C117", "title": "EncodingConverter", "statement": "`EncodingConverter::convert` returns the text in the encoding asked for, or the text itself if it cannot be converted.", "quantifier": "for all texts, all pairs of names and all target encodings of the converter", "why_tests_cant": "texts longer than the buffer, texts with zeros and all pairs of encodings", "anchors": ["common/encoding_converter.cpp: EncodingConverter::convert, EncodingConverter::convert_, EncodingConverter::CHARSET_CODES"]}
{"id": "C118", "title": "Case of letters", "statement": "The lower, upper and title case of a code point are those of UnicodeData.txt (Unicode 6.0); the search in the tables of ranges finds the range of a code point whenever there is one.", "quantifier": "for all code points (and beyond, unbounded numbers), and for all tables of ranges in order", "why_tests_cant": "the tables stand for more than 3000 pairs, and everything between the ranges has to stay as it is", "anchors": ["utf8case/range_based_case_converter.cpp: RangeBasedCaseConverter::convert, findRecord_, applyRecord_, shouldBeSkipped_, applyDelta_", "utf8case/case_tables.cpp: LOWER_CASE_RANGES, UPPER_CASE_RANGES, TITLE_CASE_RANGES"]}
{"id": "C119", "title": "Special casing", "statement": "Characters with an unconditional row in SpecialCasing.txt are converted by it, so that the conversion of a text is the full case conversion of Unicode.", "quantifier": "for all code points, for all texts", "why_tests_cant": "the rows are many and rarely occur in texts; the error shows only for characters that nobody thought of testing", "anchors": ["utf8case/special_casing_converter.cpp: SpecialCasingConverter::convert", "utf8case/case_tables.cpp: LOWER_SPECIAL_CASING, TITLE_SPECIAL_CASING, UPPER_SPECIAL_CASING", "utf8case/general_case_converter.hpp: GeneralCaseConverter::convertSingleCodePoint"]}
{"id": "C120", "title": "Case of texts", "statement": "The conversion of a well-formed text is well-formed, is the conversion of its parts put together, and converting again changes nothing; converting to one case and then to another is converting to the other.", "quantifier": "for all texts of any length in languages without rules of their own", "why_tests_cant": "all texts, and all characters", "anchors": ["utf8case/general_case_converter.hpp: GeneralCaseConverter::convert, convertSingleCodePoint, copyCharArrayToOutputIterator_", "utf8case/simple_convert.cpp: simpleConvert"]}
{"id": "C121", "title": "Case in Turkish and Azeri", "statement": "In Turkish and Azeri texts are converted by the conditional rows of SpecialCasing.txt for these languages; all languages but Lithuanian can be asked for; converting the head of a word does to its first letter what converting the word does.", "quantifier": "for all texts of any length, all languages", "why_tests_cant": "the conditions look at the neighbours of a letter at any distance", "anchors": ["utf8case/turkish_and_azeri_lower_contextual_case_converter.cpp: TurkishAndAzeriLowerContextualCaseConverter::convert", "utf8case/turkish_and_azeri_upper_contextual_case_converter.cpp: TurkishAndAzeriUpperContextualCaseConverter::convert", "utf8case/case_converter_factory.hpp: CaseConverterFactory::getCaseConverter_, getContextualCaseConverterForLanguage_"]}
{"id": "C122", "title": "Touched texts, heads and tails", "statement": "A text is said to be touched by a conversion if and only if the conversion changes it; converting the head (tail) of a word converts its first character (the rest) and nothing else, and converting both is converting the word.", "quantifier": "for all texts of any length, all cases, all languages (the last part: languages without rules of their own)", "why_tests_cant": "all texts", "anchors": ["utf8case/general_case_converter.hpp: GeneralCaseConverter::willBeTouchedWhenConverted, willBeTouchedWhenHeadConverted, willBeTouchedWhenTailConverted, headConvert, tailConvert", "utf8case/simple_convert.cpp"]}
{"id": "C123", "title": "Spellings a word is looked up under", "statement": "A lemmatizer is asked for a word as it is and in lower case, and for no spelling twice.", "quantifier": "for all words in languages without rules of their own", "why_tests_cant": "all combinations of upper and lower case in words of any length", "anchors": ["common/lemmatizer_annotator.hpp: LemmatizerAnnotator::Worker::lemmatizeSingleWord"]}
{"id": "C124", "title": "Annotations of lemmatizers", "statement": "Every annotation reported by a lemmatizer becomes an edge over the annotation it belongs to: the latest one of a kind further up, or the token; every report has a result; the annotations for different spellings of a word are kept apart.", "quantifier": "for all series of reports of any length, for all lattices", "why_tests_cant": "any lemmatizer may report annotations of the five kinds in any order", "anchors": ["common/lemmatizer_annotator.hpp: LemmatizerAnnotator::Worker::WorkerOutputIterator", "common/lemmatizer_output_iterator.cpp"]}
{"id": "C125", "title": "Reading a lexicon", "statement": "A lexicon in plain text is a list of lines; comments begin with #; a line with words between tabs and spaces is an entry of a key and at least one field, all quoted; the fields of neighbouring entries with the same key are kept in their order. A lexicon with a wrongly quoted word or an entry of one word is refused.", "quantifier": "for all files", "why_tests_cant": "any number of lines, comments, blank lines and quoted characters in any order", "anchors": ["tools/datastructures/lexica/lexicon_base.cpp: LexiconBase::readPlainText, removeComment_, isEmptyLine_"]}
{"id": "C126", "title": "Every entry counts", "statement": "Every line of a lexicon gives the entry it means.", "quantifier": "for all files", "why_tests_cant": "layout of the lines is free, so tests see only some layouts", "anchors": ["tools/datastructures/lexica/lexicon_base.cpp: LexiconBase::readPlainText, isEmptyLine_"]}
{"id": "C127", "title": "Records of a key", "statement": "Looking up a key of the lexicon gives the records of all its entries in their order and nothing else; another string gives nothing unless its hash and fingerprint are those of a key.", "quantifier": "for all files whose equal keys stand together, for all minimal perfect hash functions and fingerprints, for all strings", "why_tests_cant": "the hash function is made anew for each set of keys", "anchors": ["tools/datastructures/lexica/lexicon_base.cpp: LexiconBase::readPlainText, getRecords", "tools/datastructures/binary/key_value_store.cpp"]}
{"id": "C128", "title": "Order of the entries of a lexicon", "statement": "A lexicon can be made from entries in any order: the keys given to the store are distinct.", "quantifier": "for all files", "why_tests_cant": "all orders of all sets of entries", "anchors": ["tools/datastructures/lexica/lexicon_base.cpp: LexiconBase::readPlainText"]}
{"id": "C129", "title": "Writing a lexicon", "statement": "Entries with any key and any fields can be written as a lexicon and are read back.", "quantifier": "for all lists of entries with any bytes in their fields", "why_tests_cant": "all bytes, all lengths", "anchors": ["tools/datastructures/lexica/lexicon_base.cpp: LexiconBase::readPlainText, removeComment_", "common/utt_like_quoter.cpp: UTTLikeQuoter::doUnescape"]}
{"id": "C130", "title": "Fields of a record", "statement": "The mapper gets the fields of an entry as they were written: a text, a category, and attributes with values.", "quantifier": "for all entries", "why_tests_cant": "any bytes can be quoted in a field, also those that separate fields and records", "anchors": ["tools/lexica/mapper/mapper.cpp: Mapper::parseEntry_", "tools/datastructures/lexica/lexicon_base.cpp: LexiconBase::readPlainText, getRecords"]}
{"id": "C131", "title": "Keys of the mapper", "statement": "What the mapper looks up for an edge depends on its text, category and attributes (those that are considered) and not on the order in which attributes were first used, and is different for different edges.", "quantifier": "for all edges, all managers of attributes, all options", "why_tests_cant": "the order of the attributes depends on everything that was done before", "anchors": ["tools/lexica/mapper/mapper.cpp: Mapper::processEdge", "common/annotation_item_manager.cpp: AnnotationItemManager::getValues"]}
{"id": "C132", "title": "Edges of the mapper", "statement": "The text, category and attributes of a new edge are those of the options, of the edge or of the record, in this order of preference (for attributes: record, options, edge); cloned attributes have the values they had.", "quantifier": "for all edges, options and records", "why_tests_cant": "all combinations of sixteen options with edges and records", "anchors": ["tools/lexica/mapper/mapper.cpp: Mapper::addEntry_, addEntryUnknown_"]}
{"id": "C133", "title": "Number of edges of the mapper", "statement": "For each record found there is one new edge, in their order; if nothing is found there is one new edge if an option for unknown words is given, and none otherwise.", "quantifier": "for all edges, options and lexica", "why_tests_cant": "any number of records", "anchors": ["tools/lexica/mapper/mapper.cpp: Mapper::processEdge"]}
{"id": "C134", "title": "Lexemes", "statement": "A lexeme made of a lemma, a plus sign and a category gives back the lemma and the category.", "quantifier": "for all lemmata and categories", "why_tests_cant": "all strings", "anchors": ["common/string_helpers.cpp: getLemmaFromLexeme", "tools/lexica/bilexicon/bilexicon.cpp: BiLexicon::parseRecord_"]}
{"id": "C135", "title": "Replacement of tokens by a table", "statement": "A token is replaced by what the last line of the table for its text says, other tokens are not; every table can be read.", "quantifier": "for all tables and tokens", "why_tests_cant": "any lines in any order", "anchors": ["tools/normalizers/simplenorm/simplenorm_normalizer.cpp: SimplenormNormalizer::SimplenormNormalizer, normalize"]}
{"id": "C136", "title": "Putting tokens together", "statement": "All tokens are put together in the order of their surface positions, with a space between two of them unless there is a bracket or a punctuation mark that forbids it.", "quantifier": "for all sets of tokens", "why_tests_cant": "any number of tokens in any order with any texts", "anchors": ["tools/tokenizers/detok/detok.cpp: Detok::Worker::doRun, shouldBePrecededBySpace_, shouldBeFollowedBySpace_"]}
{"id": "C137", "title": "Hash tables of values", "statement": "Every sequence of calls on a hash table of the transferer is answered as a bag of values answers it, whatever the collisions, the growing of the table and the deleted slots.", "quantifier": "for all sequences of calls, all hash functions, all tables that begin with a power of two slots", "why_tests_cant": "which slots are hit depends on addresses; tables grow and have deleted slots only after long sequences", "anchors": ["common/zvalue.hpp: zhash"]}
{"id": "C138", "title": "Environments", "statement": "An environment answers every sequence of calls as a map does, if nothing is inserted under a key that is there.", "quantifier": "for all sequences of calls, all hash functions", "why_tests_cant": "keys are hashed by their addresses", "anchors": ["common/zvalue.hpp: zenvironment"]}
{"id": "C139", "title": "Several values under a key", "statement": "What an environment with several values under a key answers depends only on what was done to that key.", "quantifier": "for all sequences of calls", "why_tests_cant": "depends on addresses and on other keys", "anchors": ["common/zvalue.hpp: zenvironment: insert, fetch"]}
{"id": "C140", "title": "Loops over slots end", "statement": "Every call of a hash table ends, whatever its first size.", "quantifier": "for all sizes, all sequences of calls, all hash functions", "why_tests_cant": "the loop that never ends needs three keys with addresses that agree in some bits", "anchors": ["common/zvalue.hpp: zhash: put_, get_", "tools/translators/transferer/transferer.cpp"]}
{"id": "C141", "title": "Symbols are unique", "statement": "Two questions for the same text get the same symbol and two questions for different texts get different ones, whatever was asked or removed in between of other texts.", "quantifier": "for all sequences of calls of a table of symbols", "why_tests_cant": "any number of symbols; the table grows several times", "anchors": ["common/zvalue.cpp: zsymbolfactory::get_symbol, remove_symbol"]}
{"id": "C142", "title": "Removing symbols", "statement": "Removing a symbol returns it and makes it unknown.", "quantifier": "for all sequences of calls", "why_tests_cant": "all sequences", "anchors": ["common/zvalue.cpp: zsymbolfactory::remove_symbol"]}
{"id": "C143", "title": "Putting texts together", "statement": "Putting texts together with a space is associative, NULL and the empty text are neutral, and words come out with exactly one space between each two.", "quantifier": "for all texts", "why_tests_cant": "all texts, also NULL", "anchors": ["common/zvalue.cpp: zf_concat, zf_concat_with_space"]}
{"id": "C144", "title": "Vectors", "statement": "A vector answers every sequence of calls as a list does, within its block.", "quantifier": "for all sequences of calls, all sizes", "why_tests_cant": "the write behind the block has no visible effect in a test", "anchors": ["common/zvalue.hpp: zvector"]}
{"id": "C145", "title": "Trees", "statement": "Inserting, deleting and replacing subtrees does what the functions are for: afterwards the subtrees are the expected ones in their order, each knows its tree and its place; a call fails exactly if the inserted tree is already a subtree or the named one is not.", "quantifier": "for all sequences of calls on any number of trees", "why_tests_cant": "all shapes of trees and all sequences", "anchors": ["common/zvalue.cpp: zsyntree::addSubtree, insertBeside, deleteSubtree, replaceWith, insertAsNthSubtree"]}
{"id": "C146", "title": "No tree is inside itself", "statement": "No sequence of calls makes a tree a part of itself.", "quantifier": "for all sequences of calls", "why_tests_cant": "all sequences", "anchors": ["common/zvalue.cpp: zsyntree::addSubtree, insertAsNthSubtree"]}
{"id": "C147", "title": "References to a deleted subtree", "statement": "After a subtree has been deleted nothing in the tree refers to it.", "quantifier": "for all trees with any references", "why_tests_cant": "any number of references", "anchors": ["common/zvalue.cpp: zsyntree::deleteSubtree"]}
{"id": "C148", "title": "Finding a subtree", "statement": "The first subtree from the left or from the right with the given category and label is found, and NULL exactly if there is none.", "quantifier": "for all trees, categories and labels", "why_tests_cant": "all trees", "anchors": ["common/zvalue.cpp: zsyntree::find"]}
{"id": "C149", "title": "Inheriting an attribute", "statement": "A tree inherits an attribute from its first main subtree that has it, otherwise from the last subtree that has it, otherwise it gets the given value unless that is the default.", "quantifier": "for all trees and attributes", "why_tests_cant": "all trees", "anchors": ["common/zvalue.cpp: zsyntree::inherit"]}
{"id": "C150", "title": "Sorting subtrees", "statement": "Sorting by an order rearranges the subtrees so that those named earlier with < between come first; those between which the order makes no difference keep their order.", "quantifier": "for all trees and orders that name no reference twice", "why_tests_cant": "all permutations, partly named", "anchors": ["common/zvalue.cpp: zsyntree::sortByOrder", "tools/translators/transferer/trules.cpp: order"]}
{"id": "C151", "title": "Equivalent trees", "statement": "Equivalence of trees is mutual and one to one after every assignment.", "quantifier": "for all states of any number of trees", "why_tests_cant": "all chains of former partners", "anchors": ["common/zvalue.hpp: zsyntree::setEquivTree, clearEquivTree"]}
{"id": "C152", "title": "Searching an arc", "statement": "The search for an arc finds an arc with the symbol whenever the state has one, with few arcs (linear) and with many (binary); all ways to build an automaton keep the arcs sorted as the binary search needs them.", "quantifier": "for all rows of arcs, all symbols", "why_tests_cant": "all sizes of rows and all positions of the symbol", "anchors": ["tools/translators/bonsai/rules/SimpleDAG.cpp: find, linsearch, binsearch, new_arc"]}
{"id": "C153", "title": "Membership in an automaton", "statement": "`in` is true exactly for the words of the automaton and `prefix` exactly for the words along which one can go.", "quantifier": "for all automata and words", "why_tests_cant": "all automata", "anchors": ["tools/translators/bonsai/rules/SimpleDAG.cpp: in, prefix, delta"]}
{"id": "C154", "title": "Reversing an automaton", "statement": "The reversed automaton has exactly the reversed words.", "quantifier": "for all automata", "why_tests_cant": "all automata, also with several initial states", "anchors": ["tools/translators/bonsai/rules/SimpleDAG.cpp: reverse"]}
{"id": "C155", "title": "Determinization", "statement": "The determinization of any automaton ends and gives a deterministic automaton with the same words, none of whose states is superfluous.", "quantifier": "for all automata, also with circles and several initial states", "why_tests_cant": "exponentially many sets of states", "anchors": ["tools/translators/bonsai/rules/SimpleDAG.cpp: determinize"]}
{"id": "C156", "title": "Minimization", "statement": "Minimizing keeps the words and gives the deterministic automaton with the fewest states; automata with the same words give the same result but for the numbers of the states.", "quantifier": "for all automata, compared with all deterministic automata", "why_tests_cant": "minimality quantifies over all other automata", "anchors": ["tools/translators/bonsai/rules/SimpleDAG.cpp: minimize"]}
{"id": "C157", "title": "Union of automata", "statement": "The union has exactly the words of both automata, and the deterministic union is the minimal automaton of these words.", "quantifier": "for all pairs of automata", "why_tests_cant": "all pairs", "anchors": ["tools/translators/bonsai/rules/SimpleDAG.cpp: nd_union, det_union"]}
{"id": "C158", "title": "The hash of a word", "statement": "After the numbering of the arcs the hash of a word is its place in the sorted list of all words of the automaton; what is no word has no hash. So the hash is a perfect minimal hash.", "quantifier": "for all automata without cycles and all words", "why_tests_cant": "all automata and words; the sum of weights along a path must equal a global rank", "anchors": ["tools/translators/bonsai/rules/SimpleDAG.cpp: number_arcs", "tools/translators/bonsai/rules/CompressedDAG.cpp: hash"]}
{"id": "C159", "title": "Back from the hash", "statement": "`unhash` gives for the numbers 1 to the number of words the word with this hash, and the empty word for other numbers.", "quantifier": "for all automata without cycles and all numbers", "why_tests_cant": "all automata; the search for the arc by the sums of numbers", "anchors": ["tools/translators/bonsai/rules/CompressedDAG.cpp: unhash, linsearch_num, binsearch_num"]}
{"id": "C160", "title": "Intersection of automata", "statement": "The intersection ends and gives a deterministic automaton that has exactly the words of both.", "quantifier": "for all pairs of automata, also with cycles", "why_tests_cant": "all pairs of automata", "anchors": ["tools/translators/bonsai/rules/CompressedDAG.cpp: intersect"]}
{"id": "C161", "title": "Enumerating subsets", "statement": "Calling `nextksb` again and again gives each subset of 1…n with k elements exactly once, in lexicographic order, and stays within the list.", "quantifier": "for all k and n", "why_tests_cant": "all sizes of subsets", "anchors": ["tools/translators/bonsai/rules/RuleSet.cpp: nextksb"]}
{"id": "C162", "title": "Rules of limited length", "statement": "Pruning an automaton by the intersector keeps exactly the rules that are not longer than allowed and have not more nonterminals than allowed.", "quantifier": "for all limits and automata", "why_tests_cant": "all limits and automata; the intersector is a union over all subsets of places", "anchors": ["tools/translators/bonsai/rules/RuleSet.cpp: build_intersector, partial, prune_by_intersector"]}
{"id": "C163", "title": "Hashing all words of an automaton", "statement": "`multihash` gives each word that both automata have exactly once, with its hash.", "quantifier": "for all pairs of automata without cycles", "why_tests_cant": "the order in which pairs of states are visited matters: words are lost only if paths of different lengths meet", "anchors": ["tools/translators/bonsai/rules/CompressedDAG.cpp: multihash"]}
{"id": "C164", "title": "The automaton of sorted words", "statement": "For words in strictly increasing order, none of them empty, the incremental construction ends, writes no line twice, and the automaton of the lines it writes has exactly these words, although states are written and forgotten while words are still being added.", "quantifier": "for all nonempty sorted lists of nonempty words", "why_tests_cant": "all lists of words; the numbers of deleted states are used again and states are written before the end, so the result depends on what no earlier state can still change", "anchors": ["tools/translators/bonsai/utils/binaries/IncrementalFSA.cpp: add_word, replace_or_register, delta_prefix, add_branch, delete_state, purge, finalize, print_rest", "tools/translators/bonsai/utils/binaries/minfsa.cpp: main"]}
{"id": "C165", "title": "The automaton of sorted words is minimal", "statement": "The automaton written is deterministic, its states are numbered from 0 without gaps, every state is reached and leads to an end, no two states have the same words, and no deterministic automaton with the same words has fewer states.", "quantifier": "for all nonempty sorted lists of nonempty words and all other deterministic automata", "why_tests_cant": "minimality compares with all other automata", "anchors": ["tools/translators/bonsai/utils/binaries/IncrementalFSA.cpp: replace_or_register, delete_state, purge", "tools/translators/bonsai/utils/binaries/minfsa.cpp: main"]}
{"id": "C166", "title": "Words that are not strictly sorted", "statement": "A word that is the last word again or begins it, no words at all, and the empty word lead to undefined behaviour; words in another order may give an automaton with other words.", "quantifier": "for all sorted lists of words, all such words after them and all words that follow", "why_tests_cant": "undefined behaviour may go unnoticed; all inputs that follow", "anchors": ["tools/translators/bonsai/utils/binaries/IncrementalFSA.cpp: delta_prefix, finalize, purge", "tools/translators/bonsai/utils/binaries/minfsa.cpp: main"]}
{"id": "C167", "title": "Items of a memory pool do not overlap", "statement": "A memory pool whose items are only freed and written to while in use always gives another item that is not in use; the items in use are inside the blocks, begin at multiples of 8 and do not overlap; there is a new block only if all items are used, and a freed item is given next. A pool can be made iff its blocks have items. Storage gives memory of all sizes and takes it back.", "quantifier": "for all item and block sizes and all sequences of allocations, frees and writes by the owners", "why_tests_cant": "all interleavings of allocations and frees; the free list is threaded through memory that the owners overwrite", "anchors": ["tools/translators/bonsai/irstlm/mempool.cpp: mempool::mempool, allocate, free; storage::allocate, free"]}
{"id": "C168", "title": "Strings on the stack stay where they are", "statement": "The pointers returned by push keep pointing to their strings, at different places, while further strings are pushed and popped; push fails iff the string does not fit into a block; top and pop give the pointer of the last string.", "quantifier": "for all block sizes and all sequences of pushes and pops", "why_tests_cant": "all sequences; strings are found again only by the zeros between them", "anchors": ["tools/translators/bonsai/irstlm/mempool.cpp: strstack::push, pop, top"]}
{"id": "C169", "title": "Hash tables find the first key with a value", "statement": "After entering keys, searching gives the first key with the value, for every hash function; entering a key gives the key that was there or adds it; scanning gives the first key of each value once and then null.", "quantifier": "for all hash functions, numbers of chains and sequences of keys", "why_tests_cant": "all hash functions and collisions", "anchors": ["tools/translators/bonsai/irstlm/htable.cpp: search, scan"]}
{"id": "C170", "title": "Codes of words", "statement": "In a dictionary, a word has the code of its first entry and other words have none; words are there once, except for <unk>; known words are encoded as their codes; an open dictionary gives a new word the next code, unless it is too long; decoding a code gives the word, and <unk> for other numbers; this also holds after the tables have grown.", "quantifier": "for all dictionaries that come about by encoding, counting, generating and loading, and all words", "why_tests_cant": "all histories, with the hash table made anew when the table grows", "anchors": ["tools/translators/bonsai/irstlm/dictionary.cpp: encode, decode, getcode, grow", "tools/translators/bonsai/irstlm/dictionary.h: incflag, oovcode, incfreq, freq"]}
{"id": "C171", "title": "Unknown words in a closed dictionary", "statement": "In a closed dictionary an unknown word is encoded as the code for unknown words, which is the code of <unk>; the entry for <unk> is made if there is none.", "quantifier": "for all dictionaries that come about and all words that are not known", "why_tests_cant": "all histories, among them those in which <unk> came as an ordinary word", "anchors": ["tools/translators/bonsai/irstlm/dictionary.cpp: encode", "tools/translators/bonsai/irstlm/dictionary.h: oovcode, setoovrate"]}
{"id": "C172", "title": "The dictionary of a text", "statement": "Generating a dictionary from a text gives the words between white space in the order of their first occurrences, with the numbers of their occurrences, without interruption symbols, and the total number.", "quantifier": "for all texts and sizes", "why_tests_cant": "all texts", "anchors": ["tools/translators/bonsai/irstlm/dictionary.cpp: generate"]}
{"id": "C173", "title": "Saving and loading a dictionary", "statement": "A dictionary that is saved and loaded has the same words with the same codes and frequencies, the total is the sum of the frequencies, and the code for unknown words is that of <unk>; a file in which a word is repeated is refused.", "quantifier": "for all dictionaries that come about and all sizes of the dictionary into which they are loaded", "why_tests_cant": "all dictionaries", "anchors": ["tools/translators/bonsai/irstlm/dictionary.cpp: save, load"]}
{"id": "C174", "title": "Copies of dictionaries", "statement": "A copy of a dictionary has the same words with the same frequencies under new codes, finds its words, and the code for unknown words is that of the same word; a sorted copy is ordered by decreasing frequencies, then by words.", "quantifier": "for all dictionaries that come about and all results of qsort", "why_tests_cant": "all dictionaries, all frequencies; qsort may leave anything if the comparison is not consistent", "anchors": ["tools/translators/bonsai/irstlm/dictionary.cpp: dictionary(dictionary*, int), cmpdictentry"]}
{"id": "C175", "title": "Escaping of texts for the patterns of puddle", "statement": "Escaping a text leaves nothing that means something in a pattern, keeps different texts different and replaces each character by its HTML reference; unescaping gives the text again.", "quantifier": "for all texts", "why_tests_cant": "all texts; ten replacements one after another, each of which sees the results of the others", "anchors": ["tools/parsers/puddle/puddle_util.cpp: escapeSpecialChars, unescapeSpecialChars"]}
{"id": "C176", "title": "From the elements of a rule to the tokens", "statement": "The ranges of tokens for the elements of a rule are those of the tokens that the elements have matched; the head of a group is at the tokens of its element, and if the element has matched nothing there is no group; a head outside of the group is refused.", "quantifier": "for all numbers of matched tokens, starts, heads and ends", "why_tests_cant": "all rules and all ways to match them", "anchors": ["tools/parsers/puddle/puddle_util.cpp: getGroupActionParams, getSyntokActionParams, getDeleteActionParams, getUnifyActionTokenParams, getRuleBoundaries", "tools/parsers/puddle/group_action.cpp: init, test, apply"]}
{"id": "C177", "title": "Moving and deleting rules", "statement": "A rule that is moved gets its new place and the others keep their order, moving it back undoes this; deleting takes out just one rule, or none for a wrong number.", "quantifier": "for all lists of rules and all places", "why_tests_cant": "all lists and both directions", "anchors": ["tools/parsers/puddle/rule_modifier.cpp: deleteRule, moveRule", "tools/parsers/puddle/rule.cpp: deleteAction"]}
{"id": "C178", "title": "When a rule is applied", "statement": "A rule is applied if and only if the tests of all its actions agree; the numbers of tokens only change for the last element, which keeps what it needs; all actions are run in their order.", "quantifier": "for all actions and numbers of tokens", "why_tests_cant": "all behaviours of the actions", "anchors": ["tools/parsers/puddle/rule.cpp: test, apply"]}
{"id": "C179", "title": "Proper morphology labels of a tagset", "statement": "A label is proper if and only if it is that of a part of speech with a value for each of its attributes, where optional ones can be left out, in the order in which the tagset declares them.", "quantifier": "for all tagsets and labels", "why_tests_cant": "the labels are generated as a product over all attributes", "anchors": ["tools/parsers/puddle/tagset.cpp: generateProperMorphologyLabels, checkMorphology", "tools/parsers/puddle/puddle_util.cpp: getMorphologyString"]}
{"id": "C180", "title": "Reading the attributes from a label", "statement": "From the label of a choice of values just these values and the part of speech are read; what is read from any label are values in it of attributes that can have them; all values that are known are read; labels with an unknown part of speech are handled.", "quantifier": "for all tagsets and labels", "why_tests_cant": "all labels, with optional attributes left out and unknown values", "anchors": ["tools/parsers/puddle/tagset.cpp: getAttributes, checkAttributeValue"]}
{"id": "C181", "title": "Whether tokens can be unified", "statement": "The test of the unify action succeeds if and only if for each attribute there is a value that all tokens with values of the attribute have; tokens without values do not matter.", "quantifier": "for all sequences of tokens, readings and attributes", "why_tests_cant": "all numbers of tokens", "anchors": ["tools/parsers/puddle/unify_action.cpp: isUnifyingPossible, test"]}
{"id": "C182", "title": "What unifying keeps and discards", "statement": "Unifying keeps the sequences with a reading of each token that have the same values, and discards the readings of the tokens that are in none of them.", "quantifier": "for all sequences of tokens, readings and patterns", "why_tests_cant": "all products of readings", "anchors": ["tools/parsers/puddle/unify_action.cpp: generateInterpretationsVector, generateUnifiedInterpretationStrings, generateUnifiedEdgesList, discardUnunifiedEdges"]}
{"id": "C183", "title": "Partitions after unifying", "statement": "The partitions of a rule after unifying are those that go through a sequence that is kept, or all if there are none; a partition contains edges iff they are in it.", "quantifier": "for all partitions and sequences", "why_tests_cant": "all partitions", "anchors": ["tools/parsers/puddle/unify_action.cpp: apply", "tools/parsers/puddle/lattice_wrapper.cpp: sequenceContainsEdge, getPartitionsContainingEdges"]}
{"id": "C184", "title": "Deleting readings", "statement": "The delete action discards just the readings of its tokens that meet all its conditions, and its test says whether there are any.", "quantifier": "for all tokens, readings and conditions", "why_tests_cant": "all conditions", "anchors": ["tools/parsers/puddle/delete_action.cpp: test, foundEdgesToDelete", "tools/parsers/puddle/lattice_wrapper.cpp: deleteEdges", "tools/parsers/puddle/rule_loader.cpp: compileDeleteCondition, createDeleteAction"]}
{"id": "C185", "title": "Enumerating the words of an automaton", "statement": "The words that are enumerated up to a length are just the accepted words of at most this length; for a deterministic automaton each comes once and in lexicographic order.", "quantifier": "for all automata and lengths", "why_tests_cant": "all automata, with loops", "anchors": ["tools/datastructures/psi_query/fsa_algorithms.hpp: language, language_rec"]}
{"id": "C186", "title": "The tables of the CRC", "statement": "The tables that are made are those in crc32.h; their entries are the remainders of a byte followed by zero to three bytes of zeros, divided by the polynomial; the table of 7z is the first of them.", "quantifier": "for all bytes and tables", "why_tests_cant": "the claim is about remainders of polynomials; a wrong entry matters for few inputs only", "anchors": ["fex/zlib/crc32.c: make_crc_table", "fex/zlib/crc32.h: crc_table", "fex/7z_C/7zCrc.c: CrcGenerateTable"]}
{"id": "C187", "title": "The CRC-32 of a message", "statement": "crc32 gives the CRC-32 of a message (the remainder of a division of polynomials), on machines with both orders of bytes, with and without the processing by words, for buffers at all addresses; so does CrcCalc; without a buffer the CRC of the empty message is given.", "quantifier": "for all messages, addresses and kinds of machines", "why_tests_cant": "machines of the other order of bytes are not at hand; messages of all lengths and alignments", "anchors": ["fex/zlib/crc32.c: crc32, crc32_little, crc32_big", "fex/7z_C/7zCrc.c: CrcUpdate, CrcCalc"]}
{"id": "C188", "title": "The CRC-32 of a message in parts", "statement": "From the CRC of the first part crc32 gives that of the whole message; from the CRCs of both parts and the length of the second crc32_combine gives it; crc32_combine returns for all lengths.", "quantifier": "for all messages and all ways to split them", "why_tests_cant": "all lengths; the operators are powers of a matrix", "anchors": ["fex/zlib/crc32.c: crc32, gf2_matrix_times, gf2_matrix_square, crc32_combine"]}
{"id": "C189", "title": "Errors that the CRC-32 notices", "statement": "Two different messages of the same length that differ only within 32 successive bits do not have the same CRC.", "quantifier": "for all messages and all bursts of errors", "why_tests_cant": "2^32 bursts at each place of each message", "anchors": ["fex/zlib/crc32.c: crc32"]}
{"id": "C190", "title": "The Adler-32 checksum", "statement": "adler32 gives the checksum of a message, from that of a first part the checksum of the whole; no sum overflows 32 bits although remainders are only taken every 5552 bytes; without a buffer the checksum of the empty message is given.", "quantifier": "for all messages, widths of unsigned long from 32 bits on, with and without division", "why_tests_cant": "overflow would only be seen for long messages of high bytes", "anchors": ["fex/zlib/adler32.c: adler32"]}
{"id": "C191", "title": "Combining two Adler-32 checksums", "statement": "From the checksums of two parts and the length of the second adler32_combine gives the checksum of the whole message.", "quantifier": "for all messages", "why_tests_cant": "wrong only if a sum is zero, for one in 32000 messages", "anchors": ["fex/zlib/adler32.c: adler32_combine"]}
{"id": "C192", "title": "Errors that the Adler-32 checksum notices", "statement": "A change of one byte is noticed; an exchange of two different bytes is noticed if and only if their distance is not a multiple of 65521.", "quantifier": "for all messages and places", "why_tests_cant": "all places and bytes", "anchors": ["fex/zlib/adler32.c: adler32"]}
{"id": "C193", "title": "Which lengths of codes inflate accepts", "statement": "inflate_table refuses a set of lengths exactly when it is over-subscribed or incomplete, except that no codes at all and (but for the lengths of codes) a single code of one bit are accepted; for no set does it write outside the tables or fail to return.", "quantifier": "for all sets of lengths up to 15 and all kinds of codes", "why_tests_cant": "too many sets of lengths; the loops over increments of reversed codes only end for certain sets", "anchors": ["fex/zlib/inftrees.c: inflate_table"]}
{"id": "C194", "title": "Decoding with the tables of inflate", "statement": "If the input begins with the code of a symbol (by the algorithm of RFC 1951), the tables give this symbol and just the bits of its code are used up, no matter how many bits are in the buffer at first and how many bytes have to be pulled; if the input ends within the code, more is asked for; if it begins with no code, this is found out.", "quantifier": "for all sets of lengths, all sizes of the root table, all inputs and states of the buffer", "why_tests_cant": "tables with several levels whose sizes depend on a look-ahead; the early comparison of entries with incomplete bits", "anchors": ["fex/zlib/inftrees.c: inflate_table", "fex/zlib/inflate.c: inflate (states LEN, DIST, CODELENS; PULLBYTE, DROPBITS)"]}
{"id": "C195", "title": "The space for the tables of inflate is enough", "statement": "For up to 288 codes of literals and lengths and nine root bits inflate_table never reports that the space is not enough; the tables of a block never take more than the 2048 entries of the array, and nothing is written behind what is reported as used.", "quantifier": "for all sets of lengths", "why_tests_cant": "the source says that the sufficiency has not been proven exhaustively; the number of sets of lengths is astronomic", "anchors": ["fex/zlib/inftrees.c: inflate_table", "fex/zlib/inftrees.h: ENOUGH, MAXD", "fex/zlib/inflate.h: codes"]}
{"id": "C196", "title": "The lengths and distances of matches", "statement": "The numbers that the length symbols can stand for are just 3 to 258, those of the distance symbols just 1 to 32768; the tables of base values and extra bits are those of RFC 1951.", "quantifier": "for all symbols, lengths and distances", "why_tests_cant": "32768 distances; a wrong base value matters for few inputs only", "anchors": ["fex/zlib/inftrees.c: lbase, lext, dbase, dext", "fex/zlib/inflate.c: inflate (states LEN, DIST)"]}
{"id": "C197", "title": "The fixed tables of inflate", "statement": "The tables that are written out in inffixed.h decode the fixed codes of RFC 1951: each stream that begins with the code of a symbol finds an entry with the length of the code and the meaning of the symbol.", "quantifier": "for all streams and symbols", "why_tests_cant": "each entry of the tables", "anchors": ["fex/zlib/inffixed.h: lenfix, distfix", "fex/zlib/inflate.c: fixedtables"]}
{"id": "C198", "title": "The output of inflate over many calls", "statement": "However the input and the output space are cut into calls of inflate, and whichever commands go through inflate_fast, what is written is just what the literals, stored blocks and copies of the stream mean (copying byte after byte from the whole output so far, own bytes included); each byte is written as soon as there is space for it, nothing outside the window and the output is read, and the error for a distance is reported exactly when it goes back before the beginning. This is claimed for the windows of 32768 bytes that the program uses, and for smaller windows if no distance is greater than the window.", "quantifier": "for all sequences of commands, all cuts into calls, all contents of the window's memory", "why_tests_cant": "copies that begin in the window, wrap around its end and go on in the output, interrupted at each place", "anchors": ["fex/zlib/inflate.c: inflate (states LIT, DISTEXT, MATCH, COPY), updatewindow", "fex/zlib/inffast.c: inflate_fast"]}
{"id": "C199", "title": "The window of inflate holds the last bytes", "statement": "After each call of inflate that has not met an error the window holds the last bytes of the whole output, as many as fit, the byte k back being k places before the write position around the end of the window.", "quantifier": "for all sequences of calls", "why_tests_cant": "a circular buffer that is filled in pieces of each size", "anchors": ["fex/zlib/inflate.c: updatewindow, inflate"]}
{"id": "C200", "title": "A preset dictionary", "statement": "After inflateSetDictionary on a fresh stream the output goes on as if the dictionary had been written before: copies may go back into it, over the border, and further back than its beginning is an error; windows as in C198.", "quantifier": "for all dictionaries, sequences of commands and cuts into calls", "why_tests_cant": "dictionaries longer and shorter than the window, several calls after it", "anchors": ["fex/zlib/inflate.c: inflateSetDictionary, updatewindow, inflate", "fex/zlib/inffast.c: inflate_fast"]}
{"id": "C201", "title": "The head of a dynamic block", "statement": "From the head of a dynamic block inflate builds the tables of exactly those code lengths that the input gives (three numbers, the lengths of the code for lengths in their order, then the lengths of both codes as one sequence with repetitions that may go over the border between them), and leaves just the input behind the head, less than a byte of it in the bit buffer; it asks for more input exactly when the input ends within the head, and refuses exactly: too great numbers, codes that cannot be used, a repetition without a length before it, and repetitions that go too far. What is in memory from a block before plays no role.", "quantifier": "for all inputs, all contents of the bit buffer and of the memory", "why_tests_cant": "all bit streams, cut at each place", "anchors": ["fex/zlib/inflate.c: inflate (states TABLE, LENLENS, CODELENS)"]}
{"id": "C202", "title": "The commands of a block", "statement": "With the tables for two codes inflate reads from the input exactly the commands (bytes and copies, up to the end of the block) that the input gives in these codes, with the extra bits of lengths and distances; it stops for more input exactly where the input ends within a command, and reports an error exactly where a code is not in use or means nothing. This holds for the tables it builds for any code lengths that it accepts and for the fixed tables that are written out in the source.", "quantifier": "for all code lengths that make tables, all inputs and all contents of the bit buffer", "why_tests_cant": "all code lengths and all bit streams", "anchors": ["fex/zlib/inflate.c: inflate (states LEN, LENEXT, DIST, DISTEXT)", "fex/zlib/inffixed.h"]}
{"id": "C203", "title": "The blocks of a stream", "statement": "From a raw deflate stream inflate reads exactly the commands that its blocks (stored, with fixed codes, with dynamic codes; up to the last one) give, and leaves exactly the bytes behind the last block; it asks for more input or reports an error exactly where the stream is cut or wrong. Each input is one of the three, all commands are in the ranges that their execution relies upon, and what is written over any number of calls is what the blocks mean.", "quantifier": "for all inputs, all contents of the memory for tables before, all divisions of the commands into calls", "why_tests_cant": "all streams of any length", "anchors": ["fex/zlib/inflate.c: inflate (states TYPE, STORED, COPY, TABLE)", "fex/zlib/inflate.c: fixedtables"]}
{"id": "C204", "title": "The head of a gzip file", "statement": "For gzip input inflate accepts exactly the heads that RFC 1952 describes (fixed bytes, method, no unknown flags, six bytes, then extra field, name, comment and the lower half of the CRC of the head, each if its flag is set) and goes on exactly behind them; where a head ends is determined by what it is, and what is refused is refused whatever follows.", "quantifier": "for all inputs, all machines and addresses of buffers", "why_tests_cant": "all heads with fields of any length", "anchors": ["fex/zlib/inflate.c: inflate (states HEAD, FLAGS, TIME, OS, EXLEN, EXTRA, NAME, COMMENT, HCRC)"]}
{"id": "C205", "title": "The end of a gzip file", "statement": "However the content was written in pieces, inflate accepts exactly the end that is the CRC-32 of the content and its length modulo 2^32, four bytes each, and leaves exactly what is behind it; any other eight bytes are refused.", "quantifier": "for all contents, all divisions into pieces, all inputs", "why_tests_cant": "all contents of any length", "anchors": ["fex/zlib/inflate.c: inflate (states CHECK, LENGTH)", "fex/zlib/inflate.c: UPDATE"]}
{"id": "C206", "title": "Members of gzip files", "statement": "Inflate accepts exactly the inputs that begin with a member of a gzip file (head, blocks, and the CRC and the length of what the blocks mean), leaves exactly the bytes behind it, writes exactly its content over any number of calls, and refuses members with another CRC or length.", "quantifier": "for all inputs, all divisions of the content into calls", "why_tests_cant": "all members of any length", "anchors": ["fex/zlib/inflate.c: inflate", "fex/zlib/inflate.c: inflateInit2_"]}
{"id": "C207", "title": "Files that are not compressed", "statement": "Whatever the sizes of the buffer and of the first read (as long as it fits into the buffer) and whatever numbers of bytes are asked for, the calls of Zlib_Inflater::read for a file that is not compressed give the bytes of the file one behind the other, each as many as it was asked for or all that were left, and never loop. Files are taken for compressed exactly if they have at least 18 bytes and begin with the two bytes of gzip files.", "quantifier": "for all files, all sizes of buffers, all series of calls", "why_tests_cant": "the alignment of reads, direct reads and the end of the file fall together in many ways", "anchors": ["fex/fex/Zlib_Inflater.cpp: begin, fill_buf, set_mode, read"]}
{"id": "C208", "title": "The size of a gzip file", "statement": "For a gzip file Gzip_Reader::open takes the file for compressed and says the size and the CRC of its content. (For several members this is false: size and CRC are those of the last one.)", "quantifier": "for all gzip files", "why_tests_cant": "all files of any length, with any number of members", "anchors": ["fex/fex/Gzip_Reader.cpp: open, calc_size", "fex/fex/blargg_endian.h: get_le32"]}
{"id": "C209", "title": "The fast decoding", "statement": "Wherever there is input and space enough and inflate calls inflate_fast, the commands that are read and what is left of the input are exactly the same as if each command were read by the states of inflate: inflate_fast reads nothing behind the input and writes nothing behind the output, never has more than 32 bits in its buffer, and gives back exactly those bytes that it read too much. So the same holds for whole streams, however much space there is at each time.", "quantifier": "for all code lengths that make tables, the fixed codes, all inputs, all contents of the bit buffer, all amounts of space at each time", "why_tests_cant": "all streams of any length; whether a byte is given back depends on all the lengths of codes before", "anchors": ["fex/zlib/inffast.c: inflate_fast", "fex/zlib/inflate.c: inflate (state LEN)"]}
{"id": "C210", "title": "Input in pieces", "statement": "However the input of a block is divided among the calls of inflate (in the middle of codes or of extra bits, with empty pieces), the commands that the calls read, whether they end with an error or for want of input, and what is left of the input are exactly the same as if the whole input were there in one call. This holds wherever inflate_fast is called, also when it is called with a whole byte or more in the bit buffer (a code was begun in the call before), although its comment assumes less than eight bits there: it never gives back bytes of an earlier piece.", "quantifier": "for all code lengths that make tables, the fixed codes, all inputs, all divisions into pieces, all contents of the bit buffer, all amounts of space at each time", "why_tests_cant": "all streams and all divisions of them", "anchors": ["fex/zlib/inflate.c: inflate (states LEN, LENEXT, DIST, DISTEXT)", "fex/zlib/inflate.c: PULLBYTE, NEEDBITS", "fex/zlib/inffast.c: inflate_fast"]}
{"id": "C211", "title": "Stored blocks in pieces", "statement": "However a stored block is divided among the calls of inflate (also within the two numbers at its beginning, with empty pieces), the bytes that are written, whether the calls end with an error or for want of input, and what is left of the input are exactly the same as if the whole block were there in one call, and so what the input as a whole says; that the bits up to the next byte are dropped again at each call drops nothing of the numbers.", "quantifier": "for all inputs, all divisions into pieces, all contents of the bit buffer", "why_tests_cant": "all blocks and all divisions of them", "anchors": ["fex/zlib/inflate.c: inflate (states STORED, COPY)", "fex/zlib/inflate.c: PULLBYTE, NEEDBITS, BYTEBITS"]}
{"id": "C212", "title": "Heads of dynamic blocks in pieces", "statement": "However the head of a dynamic block is divided among the calls of inflate (within its numbers, within the lengths of the code for lengths, within a code or the count of a repetition, with empty pieces), the tables that are built, whether the head is refused or more input is asked for, and what is left of the input are exactly the same as if the whole head were there in one call. (A code whose count is cut is looked up again at the next call, with more bits in the buffer: it is the same code.)", "quantifier": "for all inputs, all divisions into pieces, all contents of the bit buffer and of the memory for lengths before", "why_tests_cant": "all heads and all divisions of them", "anchors": ["fex/zlib/inflate.c: inflate (states TABLE, LENLENS, CODELENS)", "fex/zlib/inflate.c: PULLBYTE, NEEDBITS"]}
{"id": "C213", "title": "Streams in pieces", "statement": "However a raw deflate stream is divided among the calls of inflate, and wherever inflate_fast is called, what is written is exactly what the blocks of the stream as a whole mean, an error is reported or more input is asked for exactly where the stream as a whole is wrong or cut, and at the end exactly the bytes behind the last block are left.", "quantifier": "for all inputs, all divisions into pieces, all contents of the memory for tables before, all amounts of space at each time", "why_tests_cant": "all streams of any length and all divisions of them", "anchors": ["fex/zlib/inflate.c: inflate (states TYPE to DISTEXT)", "fex/zlib/inffast.c: inflate_fast"]}
{"id": "C214", "title": "Gzip files in pieces", "statement": "However a member of a gzip file is divided among the calls of inflate (within the magic number, the time, the length of the extra field or the field itself, the name, the comment, the CRC of the head, the blocks, the CRC or the length at the end), it is accepted or refused, or more input is asked for, exactly as if all of it were there in one call, and the same bytes behind it are left: just the members are accepted, and those with another CRC or length at the end are refused.", "quantifier": "for all inputs, all divisions into pieces, all machines and addresses of buffers, all divisions of the content into what the calls write", "why_tests_cant": "all files of any length and all divisions of them", "anchors": ["fex/zlib/inflate.c: inflate (states HEAD to HCRC, CHECK, LENGTH)", "fex/zlib/crc32.c: crc32"]}
{"id": "C215", "title": "Reading of compressed files", "statement": "With any decoder in the place of inflate that writes a part of the content in each call and stops only for want of space or of input, the calls of Zlib_Inflater::read give the content one behind the other, each just as many bytes as it was asked for or all that were left, without an error, however large the buffer is and however much of the file was read at first. With a stream that is never ended (wrong or cut) each call gives an error or just as many bytes as it was asked for, so that this is never taken for the end of the content.", "quantifier": "for all decoders, files, sizes of the buffer and series of calls", "why_tests_cant": "all files of any length, all decoders and all series of calls", "anchors": ["fex/fex/Zlib_Inflater.cpp: Zlib_Inflater::read", "fex/fex/Zlib_Inflater.cpp: Zlib_Inflater::fill_buf", "fex/fex/Zlib_Inflater.cpp: Zlib_Inflater::begin"]}
