{
 "claims": [
  {
   "property": "C01",
   "status": "proved",
   "theorems": [
    "Verif.Lattice.C01_text_append_only",
    "Verif.Lattice.C01_edge_text"
   ],
   "note": "For all histories of modelled calls: the text only grows at its end, and the text of every edge between text positions is and stays the substring between its ends."
  },
  {
   "property": "C02",
   "status": "partial",
   "theorems": [
    "Verif.Lattice.C02_no_loops",
    "Verif.Lattice.C02_loop_rejected",
    "Verif.Lattice.C02_backward_rejected",
    "Verif.Lattice.C02_rejected_unchanged_partial",
    "Verif.Lattice.C02_rejected_false"
   ],
   "note": "No loops/backward edges and rejection of such calls without effect are proved. That any rejected call leaves every observation unchanged is proved unless the UTF-8 library throws; C02_rejected_false proves it fails of the code there (the counter is already incremented)."
  },
  {
   "property": "C03",
   "status": "proved",
   "theorems": [
    "Verif.Lattice.C03_edges_accumulate",
    "Verif.Lattice.C03_symbol_edges_fixed"
   ],
   "note": "Explicit edges: endpoints and item fixed, tags grow, partitions extended at the end, score is the largest partition score. Implicit symbol edges: everything fixed, score 0, no partitions. For all histories."
  },
  {
   "property": "C04",
   "status": "partial",
   "theorems": [
    "Verif.Lattice.C04_no_duplicates_partial",
    "Verif.Lattice.C04_add_again_partial",
    "Verif.Lattice.C04_add_again_succeeds_partial",
    "Verif.Lattice.C04_symbol_twice_false",
    "Verif.Lattice.C04_reported_item_false"
   ],
   "note": "Uniqueness and merging are proved for keys (endpoints, item, plane) whose symbol edge is never involved (Ordinary key). C04_symbol_twice_false: a symbol edge annotated twice is duplicated; C04_reported_item_false: re-adding with the item the lattice itself reports also duplicates."
  },
  {
   "property": "C05",
   "status": "partial",
   "theorems": [
    "Verif.Lattice.C05_sound",
    "Verif.Lattice.C05_exact_partial",
    "Verif.Lattice.C05_stale_index_false",
    "Verif.Lattice.C05_empty_alternative_false"
   ],
   "note": "Soundness is proved for all histories. Exactness is proved if no present edge has come to match the mask since the mask was first queried and no alternative is empty; C05_stale_index_false and C05_empty_alternative_false prove exactness fails of the code otherwise."
  },
  {
   "property": "C06",
   "status": "partial",
   "theorems": [
    "Verif.Lattice.C06_edges_agree",
    "Verif.Lattice.C06_agree_partial",
    "Verif.Lattice.C06_inside_character_false"
   ],
   "note": "Explicit edges agree unconditionally; implicit symbol edges agree between character boundaries. C06_inside_character_false proves that it fails of the code for a symbol edge starting inside a character."
  },
  {
   "property": "C07",
   "status": "proved",
   "theorems": [
    "Verif.Lattice.C07_symbols_tile"
   ],
   "note": "Proved for every list of well-formed strings appended to a new lattice. Beforehand getLastVertex is modelled for lattices without edges leaving the end of the text."
  },
  {
   "property": "C08",
   "status": "partial",
   "theorems": [
    "Verif.Lattice.C08_discard_partial",
    "Verif.Lattice.C08_never_discarded",
    "Verif.Lattice.C08_symbol_edge_false"
   ],
   "note": "Permanence and locality are proved for explicit edges, and never-discarded edges never report it for all edges. C08_symbol_edge_false: discarding an implicit symbol edge leaves the handle undiscarded."
  },
  {
   "property": "C09",
   "status": "partial",
   "theorems": [
    "Verif.Lattice.C09_at_least",
    "Verif.Lattice.C09_grows_iff_new_partial",
    "Verif.Lattice.C09_exact_partial",
    "Verif.Lattice.C09_symbol_edge_false"
   ],
   "note": "The counter is at least the number of edges for all histories, and exact if no symbol edge is re-added (SymbolOnce); C09_symbol_edge_false gives the history where it is too large."
  },
  {
   "property": "C10",
   "status": "proved",
   "theorems": [
    "Verif.Lattice.C10_path",
    "Verif.Lattice.C10_path_last"
   ],
   "note": "Proved for getPath, for every reachable lattice without loose vertices, every proper mask and every vertex; the loop ends within |text|+1 rounds. getPathWithSkipping is not modelled."
  },
  {
   "property": "C11",
   "status": "partial",
   "theorems": [
    "Verif.Lattice.C11_lists_edges_partial",
    "Verif.Lattice.C11_return_to_zero_false"
   ],
   "note": "Proved unless a hidden symbol edge at position 0 is added after another edge (in particular for every chain in a lattice without loose vertices); C11_return_to_zero_false proves that it fails of the code otherwise."
  },
  {
   "property": "C12",
   "status": "proved",
   "theorems": [
    "Verif.Tags.C12_matches",
    "Verif.Tags.C12_specification",
    "Verif.Tags.C12_any_none",
    "Verif.Tags.C12_monotone",
    "Verif.Tags.C12_language",
    "Verif.Tags.C12_equal_masks",
    "Verif.Tags.C12_isNone_effect",
    "Verif.Tags.C12_isNone_witness"
   ],
   "note": "Meaning of masks from name lists and from written specifications, any/none, monotone, language masks, equal masks. Finding: the query isNone() changes a mask of empty collections (C12_isNone_witness)."
  },
  {
   "property": "C13",
   "status": "proved",
   "theorems": [
    "Verif.Tags.C13_names",
    "Verif.Tags.C13_capacity",
    "Verif.Tags.C13_specification",
    "Verif.Tags.C13_isThere"
   ],
   "note": "Names round trip at any later time; capacity 64; comma specifications; isThere."
  },
  {
   "property": "C14",
   "status": "proved",
   "theorems": [
    "Verif.Tags.C14_equivalence",
    "Verif.Tags.C14_same_plane",
    "Verif.Tags.C14_ordinary_tags"
   ],
   "note": "Equivalence, same plane iff same '!'-tags for all collections made with the manager, ordinary tags do not matter."
  },
  {
   "property": "C15",
   "status": "proved",
   "theorems": [
    "Verif.Quoter.C15_unescape_escape",
    "Verif.Quoter.C15_psi",
    "Verif.Quoter.C15_utt",
    "Verif.Quoter.C15_injective",
    "Verif.Quoter.C15_hypothesis_needed",
    "Verif.Quoter.C15_unescape_exact"
   ],
   "note": "Round trip for every byte string and every set of additional specials without the letters n, t, r (needed: C15_hypothesis_needed); instances for PSI and UTT quoters; unescape is exact w.r.t. the quoting grammar."
  },
  {
   "property": "C16",
   "status": "proved",
   "theorems": [
    "Verif.Quoter.C16_no_separator",
    "Verif.Quoter.C16_nonempty",
    "Verif.Quoter.C16_isEscaped_exact",
    "Verif.Quoter.C16_specials_escaped",
    "Verif.Quoter.C16_psi_hash"
   ],
   "note": "No separator in quoted text; '*' and additional specials always escaped; isEscaped is the parity test; malformed input reported exactly (C15_unescape_exact)."
  },
  {
   "property": "C17",
   "status": "proved",
   "theorems": [
    "Verif.Quoter.C17_unescape_escape",
    "Verif.Quoter.C17_injective",
    "Verif.Quoter.C17_single_line",
    "Verif.Quoter.C17_throws_iff"
   ],
   "note": "Round trip, injectivity, single line, and throws exactly on an odd run of trailing backslashes. Unknown escapes are silently dropped by the code (modelled)."
  },
  {
   "property": "C18",
   "status": "partial",
   "theorems": [
    "Verif.StringFrag.C18_denotes_partial",
    "Verif.StringFrag.C18_find_partial",
    "Verif.StringFrag.C18_append_false",
    "Verif.StringFrag.C18_find_false",
    "Verif.StringFrag.C18_sub_false"
   ],
   "note": "Full claim false: C18_append_false (non-adjacent append replaces the receiver), C18_find_false (looks past the end), C18_sub_false (fragment of a stored fragment). Proved: str/length/[]/substr/data for every other sequence of operations incl. growth of the text; find right when the character occurs."
  },
  {
   "property": "C19",
   "status": "proved",
   "theorems": [
    "Verif.Cutter.C19_fragment",
    "Verif.Cutter.C19_run",
    "Verif.Cutter.C19_no_error",
    "Verif.Cutter.C19_cuts",
    "Verif.Cutter.C19_soft"
   ],
   "note": "Fragments concatenate, well-formed, within the hard limit, terminates; error only if some character is longer than the hard limit; soft-limit behaviour. The underlying cutter is an arbitrary function advancing to character boundaries; text is a plain std::string."
  },
  {
   "property": "C20",
   "status": "proved",
   "theorems": [
    "Verif.Utf8.C20_append_is_standard",
    "Verif.Utf8.C20_next_append",
    "Verif.Utf8.C20_validate_exact",
    "Verif.Utf8.C20_next_of_validate",
    "Verif.Utf8.C20_prior_append"
   ],
   "note": "append writes the standard encoding; next/prior/validate_next decode it exactly; validate_next accepts exactly shortest-form encodings of scalar values."
  },
  {
   "property": "C21",
   "status": "proved",
   "theorems": [
    "Verif.Utf8.C21_reading_unique",
    "Verif.Utf8.C21_find_invalid_exact",
    "Verif.Utf8.C21_isValid_iff",
    "Verif.Utf8.C21_split",
    "Verif.Utf8.C21_utf8to32",
    "Verif.Utf8.C21_utf32to8",
    "Verif.Utf8.C21_roundtrip",
    "Verif.Utf8.C21_distance",
    "Verif.Utf8.C21_advance",
    "Verif.Utf8.C21_symbolLength",
    "Verif.Utf8.C21_symbolLength_all"
   ],
   "note": "is_valid/find_invalid exact; unique reading; utf8to32/utf32to8 round trip, distance, advance, symbolLength."
  },
  {
   "property": "C22",
   "status": "partial",
   "theorems": [
    "Verif.Glob.C22_complete_partial",
    "Verif.Glob.C22_defined",
    "Verif.Glob.C22_exact_partial",
    "Verif.Glob.C22_exact_ascii_partial",
    "Verif.Glob.C22_false"
   ],
   "note": "The full claim is false of the code (C22_false: '*??ab' matches a euro sign followed by 'ab'). Proved: no intended match is missed, no out-of-bounds read on well-formed names, exact for globs without '*?' and for ASCII names."
  },
  {
   "property": "C23",
   "status": "proved",
   "theorems": [
    "Verif.PathGlob.C23_exact",
    "Verif.PathGlob.C23_code",
    "Verif.PathGlob.C23_all_below"
   ],
   "note": "Exact set of files found in any finite directory tree without duplicate names; '**' in last position requires at least one name (files below). '.'/'..' and symbolic links are not modelled."
  },
  {
   "property": "C24",
   "status": "partial",
   "theorems": [
    "Verif.EditDistance.C24_is_distance",
    "Verif.EditDistance.C24_zero_iff",
    "Verif.EditDistance.C24_symm",
    "Verif.EditDistance.C24_triangle",
    "Verif.EditDistance.C24_most_similar_partial",
    "Verif.EditDistance.C24_suggestion_false"
   ],
   "note": "Distance, metric laws proved in full. The suggestion is minimal when some candidate is closer than 99 edits (C24_most_similar_partial); C24_suggestion_false: otherwise the code suggests the empty string."
  },
  {
   "property": "C25",
   "status": "proved",
   "theorems": [
    "Verif.Limit.C25_isAllowed",
    "Verif.Limit.C25_default",
    "Verif.Limit.C25_order_irrelevant"
   ],
   "note": "Holds for all declaration sequences and queries; with equal bounds the first declared limit wins (stated)."
  },
  {
   "property": "C26",
   "status": "proved",
   "theorems": [
    "Verif.FileSpec.C26_result",
    "Verif.FileSpec.C26_unknown",
    "Verif.FileSpec.C26_unbalanced",
    "Verif.FileSpec.C26_addParam"
   ],
   "note": "Result, unknown parameter, unbalanced percent sign, parameter overriding."
  },
  {
   "property": "C27",
   "status": "proved",
   "theorems": [
    "Verif.MonotonicVector.C27_at",
    "Verif.MonotonicVector.C27_back",
    "Verif.MonotonicVector.C27_save_load"
   ],
   "note": "Holds for every sequence of positions in range (not only non-decreasing ones), for every instance of the template whose LenT is not wider than PosT; save/load round trip included."
  },
  {
   "property": "C28",
   "status": "partial",
   "theorems": [
    "Verif.StringVector.C28_elements",
    "Verif.StringVector.C28_sorted",
    "Verif.StringVector.C28_find_sorted",
    "Verif.StringVector.C28_find_unsorted_partial",
    "Verif.StringVector.C28_nonascii_false",
    "Verif.StringVector.C28_find_false",
    "Verif.StringVector.C28_save_load"
   ],
   "note": "Elements, size, sorted flag, find in sorted mode for pushed strings and find in unsorted mode for ASCII strings are proved. The rest of the claim is false of the code: sorted find reports a missing string at an existing index, unsorted find misses every non-ASCII string (C28_find_false, C28_nonascii_false)."
  },
  {
   "property": "C29",
   "status": "proved",
   "theorems": [
    "Verif.KeyValue.C29_get",
    "Verif.KeyValue.C29_other_keys",
    "Verif.KeyValue.C29_save_load"
   ],
   "note": "For every minimal perfect hash and every fingerprint function; keys are C strings (cut at NUL). Save/load of the part after cmph_dump included."
  },
  {
   "property": "C30",
   "status": "partial",
   "theorems": [
    "Verif.Huffman.C30_complete",
    "Verif.Huffman.C30_complete_any",
    "Verif.Huffman.C30_prefix_free_partial",
    "Verif.Huffman.C30_lossless_partial",
    "Verif.Huffman.C30_lossless",
    "Verif.Huffman.C30_shift_false"
   ],
   "note": "Full claim false only beyond practical sizes: C30_shift_false (66 symbols with Fibonacci frequencies give a 65-bit code; the shift is undefined). Proved for every standard heap: completeness for up to 65536 symbols with any 64-bit frequencies and for any number of symbols with positive frequencies; lossless whenever frequencies are positive and sum to less than 44945570212853, and whenever no code exceeds 64 bits. Save/Load of the coder is not modelled."
  },
  {
   "property": "C31",
   "status": "partial",
   "theorems": [
    "Verif.BitStream.C31_put",
    "Verif.BitStream.C31_read",
    "Verif.BitStream.C31_roundtrip",
    "Verif.BitStream.C31_seek_partial",
    "Verif.BitStream.C31_tell_from_end",
    "Verif.BitStream.C31_seek_from_end_partial",
    "Verif.BitStream.C31_reset",
    "Verif.BitStream.C31_seek_zero_false"
   ],
   "note": "Full claim false: Seek(0), the position told at the start, reads before the first element (C31_seek_zero_false). Proved for all bit strings: what is written, what is read, round trip, Seek to every position but 0 from any state, Reset."
  },
  {
   "property": "C32",
   "status": "partial",
   "theorems": [
    "Verif.LemmaCode.C32_code",
    "Verif.LemmaCode.C32_exact",
    "Verif.LemmaCode.C32_short_partial",
    "Verif.LemmaCode.C32_false"
   ],
   "note": "Full claim false: with more than 62 characters to cut at either end the code does not restore the lemma (C32_false). C32_exact gives the exact condition; C32_short_partial: every form of at most 62 bytes."
  },
  {
   "property": "C33",
   "status": "proved",
   "theorems": [
    "Verif.ListCoders.C33_roundtrip",
    "Verif.ListCoders.C33_words",
    "Verif.ListCoders.C33_sum"
   ],
   "note": "For every payload size s>0 (7, 15, 31 in the code) and every list of 64-bit numbers; DecodeAndSum sums in 64 bits and leaves the iterator behind the numbers read."
  },
  {
   "property": "C34",
   "status": "partial",
   "theorems": [
    "Verif.ListCoders.C34_defined",
    "Verif.ListCoders.C34_roundtrip_partial",
    "Verif.ListCoders.C34_sum_partial",
    "Verif.ListCoders.C34_zero_false"
   ],
   "note": "Full claim false: the number 0 makes Encode divide by zero (C34_zero_false). C34_defined: Encode is defined exactly for numbers 1..2^28-1; for these decoding is exact and DecodeAndSum returns the sum of the first n numbers. ceil(log(x+1)/log 2) is taken to be exact."
  },
  {
   "property": "C35",
   "status": "proved",
   "theorems": [
    "Verif.Fsa.C35_in",
    "Verif.Fsa.C35_in_lang",
    "Verif.Fsa.C35_reverse",
    "Verif.Fsa.C35_reachable",
    "Verif.Fsa.C35_prune",
    "Verif.Fsa.C35_epsRemove",
    "Verif.Fsa.C35_determinize",
    "Verif.Fsa.C35_minimize"
   ],
   "note": "In (membership test), reverse, reachable, prune, epsRemove, determinize and minimize; besides the language: reachability, usefulness, determinism, absence of epsilon arcs, and minimality of the minimized automaton (no deterministic automaton for the language has fewer states)."
  },
  {
   "property": "C36",
   "status": "partial",
   "theorems": [
    "Verif.Fsa.C36_unify",
    "Verif.Fsa.C36_kleenePlus",
    "Verif.Fsa.C36_kleeneOption_partial",
    "Verif.Fsa.C36_kleeneStar_partial",
    "Verif.Fsa.C36_option_false",
    "Verif.Fsa.C36_star_false",
    "Verif.Fsa.C36_concatenate_partial",
    "Verif.Fsa.C36_concatenate_false"
   ],
   "note": "unify and kleene_plus are proved in full. kleene_option and kleene_star lack a transition from the new start to the new end state, so the empty word is not added: proved for all other words, with a counterexample for the empty word. concatenate is proved when the first automaton has an end state; otherwise the second automaton's start states stay start states (counterexample)."
  },
  {
   "property": "C37",
   "status": "partial",
   "theorems": [
    "Verif.Fsa.C37_sound_partial",
    "Verif.Fsa.C37_exact_partial",
    "Verif.Fsa.C37_plain_partial",
    "Verif.Fsa.C37_deterministic_partial",
    "Verif.Fsa.C37_starts_false",
    "Verif.Fsa.C37_ends_false",
    "Verif.Fsa.C37_any_false"
   ],
   "note": "Exact and deterministic results are proved where every state's final flag agrees with its epsilon closure, both automata have the same start states, and ANY does not meet EPS. In general false of the code: the start states of the first automaton are used for both, the final states ignore the epsilon closure, and ANY is matched against EPS; each has a witness theorem."
  },
  {
   "property": "C38",
   "status": "partial",
   "theorems": [
    "Verif.Fsa.C38_states",
    "Verif.Fsa.C38_arcs_partial",
    "Verif.Fsa.C38_empty_false",
    "Verif.Fsa.C38_full_false",
    "Verif.Fsa.C38_delta_partial",
    "Verif.Fsa.C38_in_partial",
    "Verif.Fsa.C38_closure_partial"
   ],
   "note": "Proved for every sequence of valid operations with fewer than 2^31 arcs; size and end states without further conditions, arcs, transitions, membership and epsilon closure for automata with at least one state. False of the code for the automaton without states (undefined access) and when the number of arcs reaches 2^31; both have witness theorems."
  },
  {
   "property": "C39",
   "status": "partial",
   "theorems": [
    "Verif.Fsa.C39_dfsa_partial",
    "Verif.Fsa.C39_bin_partial",
    "Verif.Fsa.C39_minimal_partial",
    "Verif.Fsa.C39_empty_false",
    "Verif.Fsa.C39_unsorted_false"
   ],
   "note": "Language and minimality proved for the reference and the packed automaton for every sorted list with at least one non-empty word and every hash function (packed: fewer than 2^31 symbols in all). False of the code for lists without a non-empty word (last arc of a state without arcs is read), witness theorem."
  },
  {
   "property": "C40",
   "status": "proved",
   "theorems": [
    "Verif.Server.C40_chunks",
    "Verif.Server.C40_same",
    "Verif.Server.C40_prefix"
   ],
   "note": "The parser state after any chunks equals the state after the joined stream; verdict, consumed length and request agree."
  },
  {
   "property": "C41",
   "status": "partial",
   "theorems": [
    "Verif.Server.C41_plain_partial",
    "Verif.Server.C41_multipart_partial",
    "Verif.Server.C41_multipart_false",
    "Verif.Server.C41_lines_false",
    "Verif.Server.C41_empty_false"
   ],
   "note": "Proved for plain bodies without line ends of positive length, and for multipart bodies with the last byte missing. Negations proved: multipart bodies lose the last byte, line ends in plain bodies are refused, an empty body waits for a byte."
  },
  {
   "property": "C42",
   "status": "proved",
   "theorems": [
    "Verif.Server.C42_decode",
    "Verif.Server.C42_decode_false",
    "Verif.Server.C42_root",
    "Verif.Server.C42_path",
    "Verif.Server.C42_refused",
    "Verif.Server.C42_length"
   ],
   "note": "Non-interference: the answer depends only on files inside the root (lexical path resolution, no symbolic links). urlDecode inverts percent encoding; C42_decode_false shows it also accepts strings that are no encoding."
  },
  {
   "property": "C43",
   "status": "partial",
   "theorems": [
    "Verif.Server.Mpfd.C43_files_partial",
    "Verif.Server.Mpfd.C43_defined",
    "Verif.Server.Mpfd.C43_text_false"
   ],
   "note": "Proved for files (memory and disk storage) and for all else up to the contents of text fields; C43_text_false shows that a text field fed in pieces keeps only the last piece."
  },
  {
   "property": "C44",
   "status": "partial",
   "theorems": [
    "Verif.Chart.C44_sound",
    "Verif.Chart.C44_complete",
    "Verif.Chart.C44_exact_partial",
    "Verif.Chart.C44_cfg_partial",
    "Verif.Chart.C44_order_partial",
    "Verif.Chart.C44_ends",
    "Verif.Chart.C44_blanks_false",
    "Verif.Chart.C44_hidden_false"
   ],
   "note": "Agenda parser of the gobio parser with any agenda policy. Soundness and termination hold for every grammar, chart, limit and policy; without limits the chart is exactly the set of derivable constituents in a tokenised text with single blanks (C44_exact_partial) and does not depend on the order (C44_order_partial). False with two blanks side by side (C44_blanks_false) and where a hidden edge has the item of a constituent (C44_hidden_false). C44_cfg_partial: a rule of the grammar files joins exactly the constituents it names."
  },
  {
   "property": "C45",
   "status": "proved",
   "theorems": [
    "Verif.Utf8.C45_units",
    "Verif.Utf8.C45_roundtrip"
   ],
   "note": "unchecked utf8to16/utf16to8 on well-formed input."
  },
  {
   "property": "C46",
   "status": "partial",
   "theorems": [
    "Verif.Server.C46_get",
    "Verif.Server.C46_overflow_false",
    "Verif.Server.C46_only",
    "Verif.Server.C46_defined"
   ],
   "note": "Round trip proved for every well-formed head and definedness for streams with fewer than ten digits; C46_overflow_false shows that longer version numbers overflow an int. C46_only is the converse: whatever is accepted is a start line, headers (possibly folded), an empty line and a body of the announced length."
  },
  {
   "property": "C48",
   "status": "proved",
   "theorems": [
    "Verif.Server.Mpfd.C48_form",
    "Verif.Server.Mpfd.C48_name_false",
    "Verif.Server.Mpfd.C48_type_false"
   ],
   "note": "The conditions on names and types are explicit; C48_name_false and C48_type_false show what happens outside them."
  },
  {
   "property": "C49",
   "status": "proved",
   "theorems": [
    "Verif.Huffman.C49_lengths",
    "Verif.Huffman.C49_optimal",
    "Verif.Huffman.C49_text"
   ],
   "note": "C49_optimal and C49_text carry the hypothesis that no code is longer than 64 bits; longer codes are undefined behaviour in the code itself (see C30)."
  },
  {
   "property": "C47",
   "status": "partial",
   "theorems": [
    "Verif.Server.Site.C47_ends",
    "Verif.Server.Site.C47_rounds",
    "Verif.Server.Site.C47_ends_false",
    "Verif.Server.Site.C47_fields_partial",
    "Verif.Server.Site.C47_stored",
    "Verif.Server.Site.C47_names_false",
    "Verif.Server.Site.C47_no_value_false",
    "Verif.Server.Site.C47_percent_false"
   ],
   "note": "Values are decoded and the fields come in order (C47_fields_partial), the last value of a name counts (C47_stored). Missing because false of the code: names are not decoded; parts without '=' are not fields; the loop runs for ever exactly if there is an '&' and no '=' after the last one (C47_ends); '%' without a number repeats the byte before or is undefined."
  },
  {
   "property": "C50",
   "status": "proved",
   "theorems": [
    "Verif.Server.Site.C50_filled",
    "Verif.Server.Site.C50_unchanged",
    "Verif.Server.Site.C50_code_false",
    "Verif.Server.Site.C50_length"
   ],
   "note": "C50_filled for every page whose places have the form <!--#psis code -->. C50_code_false shows what happens without the blank before -->. The registered functions may read and change the data of the session only."
  },
  {
   "property": "C51",
   "status": "partial",
   "theorems": [
    "Verif.Server.Site.C51_cookie",
    "Verif.Server.Site.C51_no_cookie",
    "Verif.Server.Site.C51_crash_false",
    "Verif.Server.Site.C51_ids",
    "Verif.Server.Site.C51_isolated",
    "Verif.Server.Site.C51_new",
    "Verif.Server.Site.C51_known",
    "Verif.Server.Site.C51_reuse_false"
   ],
   "note": "C51_isolated, C51_new and C51_known hold for up to 9999 requests, one at a time. Missing because false of the code: after 10000 ids the number in the id repeats (C51_reuse_false); cookies ending in the bare word PSISESSIONID throw an exception nobody catches (C51_crash_false). The shared currentSessionId_ of several threads is not modelled."
  },
  {
   "property": "C52",
   "status": "partial",
   "theorems": [
    "Verif.Lattice.C52_added_partial",
    "Verif.Lattice.C52_implicit",
    "Verif.Lattice.C52_implicit_false"
   ],
   "note": "C52_added_partial covers every edge stored in the graph (new, merged, promoted); C52_implicit says when an edge is stored implicitly. Implicit symbol edges do not keep item and score (C52_implicit_false)."
  },
  {
   "property": "C53",
   "status": "partial",
   "theorems": [
    "Verif.Fsa.C53_numbers_partial",
    "Verif.Fsa.C53_list_partial",
    "Verif.Fsa.C53_outside_false",
    "Verif.Fsa.C53_empty_false"
   ],
   "note": "Proved for every deterministic acyclic automaton with start state 0 that does not accept the empty word (C53_numbers_partial) and for the automaton of every sorted word list without the empty word (C53_list_partial). False of words that are not accepted (C53_outside_false: find does not compare the symbol) and where the empty word is accepted (C53_empty_false)."
  },
  {
   "property": "C54",
   "status": "partial",
   "theorems": [
    "Verif.Pipeline.C54_fulfilled",
    "Verif.Pipeline.C54_requested",
    "Verif.Pipeline.C54_unchanged",
    "Verif.Pipeline.C54_language_false",
    "Verif.Pipeline.C54_superfluous_false"
   ],
   "note": "C54_fulfilled, C54_requested and C54_unchanged are proved for every environment. False: the requirement check ignores the language of the provider (C54_language_false) and an inserted processor need not be needed, since qualities are summed (C54_superfluous_false). The tags a factory says it provides are assumed to be those its promises provide."
  },
  {
   "property": "C55",
   "status": "proved",
   "theorems": [
    "Verif.Pipeline.C55_best",
    "Verif.Pipeline.C55_failure"
   ],
   "note": "C55_best for the completions the search visits, C55_failure: failure exactly if there is none."
  },
  {
   "property": "C56",
   "status": "partial",
   "theorems": [
    "Verif.Pipeline.C56_ends_partial",
    "Verif.Pipeline.C56_circle_false",
    "Verif.Pipeline.C56_no_language_false"
   ],
   "note": "C56_ends_partial: the search ends if the requirements have no circle. False in general: C56_circle_false (two processors that require each other: no end although there is a solution) and C56_no_language_false (no language: a list position that was erased is used)."
  },
  {
   "property": "C57",
   "status": "partial",
   "theorems": [
    "Verif.Pipeline.C57_destinations_partial",
    "Verif.Pipeline.C57_aliases_partial",
    "Verif.Pipeline.C57_long_false",
    "Verif.Pipeline.C57_circle_false"
   ],
   "note": "C57_destinations_partial: exact for chains of at most five steps; C57_aliases_partial: exact if the declarations have no circle. False: C57_long_false (a chain of six stands for nothing), C57_circle_false (a circle: getAllAliases never returns)."
  },
  {
   "property": "C58",
   "status": "partial",
   "theorems": [
    "Verif.Gobio.C58_compiled_partial",
    "Verif.Gobio.C58_none",
    "Verif.Gobio.C58_dropped_false",
    "Verif.Gobio.C58_constant_false",
    "Verif.Gobio.C58_else_false",
    "Verif.Gobio.C58_zero_false"
   ],
   "note": "C58_compiled_partial: for all conditions in which 0 and -1 are only written on the right, no :: is in a right operand, the middle operand of a threefold intersection is no constant, and what is before a comma does not end in an assignment of something with a jump. Each of the four restrictions is needed: C58_zero_false, C58_else_false, C58_constant_false, C58_dropped_false. Numbers are exact in the model."
  },
  {
   "property": "C59",
   "status": "proved",
   "theorems": [
    "Verif.Gobio.C59_forward",
    "Verif.Gobio.C59_ends"
   ],
   "note": "C59_forward and C59_ends, for every expression tree, also for those no parser makes."
  },
  {
   "property": "C60",
   "status": "partial",
   "theorems": [
    "Verif.PsiFormat.C60_row_partial",
    "Verif.PsiFormat.C60_file_partial",
    "Verif.PsiFormat.C60_injective_partial",
    "Verif.PsiFormat.C60_symbol_false",
    "Verif.PsiFormat.C60_tag_false",
    "Verif.PsiFormat.C60_category_false",
    "Verif.PsiFormat.C60_shorten_false"
   ],
   "note": "C60_row_partial, C60_file_partial, C60_injective_partial: for rows as in Row.Plain. The restrictions are needed: C60_symbol_false (categories with , < [), C60_tag_false (tags with _), C60_category_false (no category), C60_shorten_false (text that is shortened). How a score is printed and read is a parameter."
  },
  {
   "property": "C61",
   "status": "partial",
   "theorems": [
    "Verif.PsiFormat.C61_partitions_partial",
    "Verif.PsiFormat.C61_hidden_false",
    "Verif.PsiFormat.C61_empty_false",
    "Verif.PsiFormat.C61_tag_false"
   ],
   "note": "C61_partitions_partial: for partitions as in PlainPart. The restrictions are needed: C61_hidden_false (a skipped edge before a written one), C61_empty_false (a partition without edges), C61_tag_false (tags with _)."
  },
  {
   "property": "C62",
   "status": "partial",
   "theorems": [
    "Verif.Bracket.C62_complete_partial",
    "Verif.Bracket.C62_nested_partial",
    "Verif.Bracket.C62_crossing_false",
    "Verif.Bracket.C62_point_false"
   ],
   "note": "C62_complete_partial: any edges between symbols that go forward; C62_nested_partial: such edges that do not cross. The restrictions are needed: C62_crossing_false, C62_point_false (edges of no length are not printed)."
  },
  {
   "property": "C63",
   "status": "partial",
   "theorems": [
    "Verif.Bracket.C63_ends",
    "Verif.Bracket.C63_order_partial",
    "Verif.Bracket.C63_two_partial",
    "Verif.Bracket.C63_keep",
    "Verif.Bracket.C63_three_false"
   ],
   "note": "C63_ends (ends, nothing lost) and C63_keep hold in full. C63_order_partial: the order is right except for the first two; C63_two_partial: right for at most two edges. C63_three_false: wrong for three."
  },
  {
   "property": "C64",
   "status": "partial",
   "theorems": [
    "Verif.Bracket.C64_total_partial",
    "Verif.Bracket.C64_asymmetric_partial",
    "Verif.Bracket.C64_order_false",
    "Verif.Bracket.C64_transitive_false"
   ],
   "note": "C64_total_partial: irreflexive and total; C64_asymmetric_partial: asymmetric for edges of which one is at most the other in every field. C64_order_false, C64_transitive_false: not asymmetric, not transitive."
  },
  {
   "property": "C65",
   "status": "partial",
   "theorems": [
    "Verif.Bracket.C65_patterns_partial",
    "Verif.Bracket.C65_list_partial",
    "Verif.Bracket.C65_loop_false",
    "Verif.Bracket.C65_missing_false",
    "Verif.Bracket.C65_empty_false",
    "Verif.Bracket.C65_text_false",
    "Verif.Bracket.C65_role_false"
   ],
   "note": "C65_patterns_partial and C65_list_partial: names without their closing bracket, all attributes named are there if %A is used, one list in the first of two patterns, no % printed before it or in the second pattern. C65_loop_false (does not end), C65_missing_false, C65_empty_false, C65_text_false, C65_role_false. Modelled for vectors (duplicates kept)."
  },
  {
   "property": "C66",
   "status": "partial",
   "theorems": [
    "Verif.IterWriter.C66_plain",
    "Verif.IterWriter.C66_grouped_partial",
    "Verif.IterWriter.C66_lost_false"
   ],
   "note": "C66_plain: in full without groups (no tag twice at an edge). C66_grouped_partial: with groups, from the first vertex on where some group is opened; C66_lost_false: edges before are lost even if in a group."
  },
  {
   "property": "C67",
   "status": "partial",
   "theorems": [
    "Verif.IterWriter.C67_turns_partial",
    "Verif.IterWriter.C67_first",
    "Verif.IterWriter.C67_segments_partial",
    "Verif.IterWriter.C67_unopened_false",
    "Verif.IterWriter.C67_gap_false"
   ],
   "note": "C67_turns_partial: each tag is opened and closed in turn or closed once without being opened (C67_unopened_false); C67_first: in turn and at least once if an edge with the tag begins at vertex 0. C67_segments_partial: exact for one tag whose edges follow each other from vertex 0 on; C67_gap_false: not if there is a gap."
  },
  {
   "property": "C68",
   "status": "partial",
   "theorems": [
    "Verif.IterWriter.C68_plain_partial",
    "Verif.IterWriter.C68_lines_partial",
    "Verif.IterWriter.C68_order_false",
    "Verif.IterWriter.C68_empty_false"
   ],
   "note": "C68_plain_partial, C68_lines_partial: texts that are not empty; no groups, or one tag whose edges follow each other. C68_empty_false, C68_order_false: with empty texts or two tags it is different."
  },
  {
   "property": "C69",
   "status": "partial",
   "theorems": [
    "Verif.IterWriter.C69_string",
    "Verif.IterWriter.C69_control_false",
    "Verif.IterWriter.C69_item_partial",
    "Verif.IterWriter.C69_plain",
    "Verif.IterWriter.C69_groups_partial",
    "Verif.IterWriter.C69_two_false"
   ],
   "note": "C69_string characterises when a quoted string is JSON, and for what; C69_item_partial; C69_plain; C69_groups_partial: one tag whose edges follow each other. C69_control_false: control characters are not escaped; C69_two_false: with two tags groups are closed that should not be."
  },
  {
   "property": "C70",
   "status": "partial",
   "theorems": [
    "Verif.Srx.C70_pieces",
    "Verif.Srx.C70_invalid_false"
   ],
   "note": "C70_pieces: in full for well-formed text. C70_invalid_false: on a text with a byte that cannot begin a character the search can go on forever."
  },
  {
   "property": "C71",
   "status": "partial",
   "theorems": [
    "Verif.Srx.C71_standard_partial",
    "Verif.Srx.C71_single_false",
    "Verif.Srx.C71_monotone_false",
    "Verif.Srx.C71_straddle_false"
   ],
   "note": "C71_standard_partial: exact, for rules whose matches break at one place only, later if they begin later, and when no break falls inside a match. C71_single_false, C71_monotone_false, C71_straddle_false: each of the three conditions is needed."
  },
  {
   "property": "C72",
   "status": "partial",
   "theorems": [
    "Verif.Srx.C72_parens",
    "Verif.Srx.C72_captures_partial",
    "Verif.Srx.C72_named_false",
    "Verif.Srx.C72_classes_partial",
    "Verif.Srx.C72_classes_false"
   ],
   "note": "C72_parens: exactly which parentheses are changed. C72_captures_partial: no group captures if none has a name; C72_named_false. C72_classes_partial: classes without a plain parenthesis; C72_classes_false: `[(]` is changed."
  },
  {
   "property": "C73",
   "status": "partial",
   "theorems": [
    "Verif.Srx.C73_rules",
    "Verif.Srx.C73_first",
    "Verif.Srx.C73_cascade_partial",
    "Verif.Srx.C73_order_false"
   ],
   "note": "C73_rules characterises the rules in full; C73_first: as the standard wants without cascade; C73_cascade_partial: with cascade if the lists come in the order of the maps; C73_order_false: not otherwise."
  },
  {
   "property": "C74",
   "status": "partial",
   "theorems": [
    "Verif.Annot.C74_store",
    "Verif.Annot.C74_limit",
    "Verif.Annot.C74_order_false"
   ],
   "note": "C74_store and C74_limit: in full, with the order in which the manager first saw the attributes. C74_order_false: not the order in which they were set in the item."
  },
  {
   "property": "C75",
   "status": "partial",
   "theorems": [
    "Verif.Annot.C75_equivalence",
    "Verif.Annot.C75_hash",
    "Verif.Annot.C75_same",
    "Verif.Annot.C75_attributes_partial",
    "Verif.Annot.C75_absent_false",
    "Verif.Annot.C75_empty_false"
   ],
   "note": "C75_equivalence, C75_hash, C75_same in full. C75_attributes_partial: equal items have the same attributes unless a value is `false` or the empty string; C75_absent_false, C75_empty_false."
  },
  {
   "property": "C76",
   "status": "partial",
   "theorems": [
    "Verif.Annot.C76_number",
    "Verif.Annot.C76_word",
    "Verif.Annot.C76_unchanged_partial",
    "Verif.Annot.C76_zeros_false",
    "Verif.Annot.C76_large_false",
    "Verif.Annot.C76_alias_false"
   ],
   "note": "C76_number, C76_word say what is read for every string; C76_unchanged_partial: exactly which strings are read back unchanged. C76_zeros_false, C76_large_false, C76_alias_false: 007, 1073741824 and any are not."
  },
  {
   "property": "C77",
   "status": "partial",
   "theorems": [
    "Verif.Unumsunt.C77_rules",
    "Verif.Unumsunt.C77_constants",
    "Verif.Unumsunt.C77_condition_false"
   ],
   "note": "C77_rules: in full for any rules without alternatives; C77_constants says what the attributes are then. C77_condition_false: the conditions `A = any` and `A = 007` fail for attributes set to `any` and `007`."
  },
  {
   "property": "C78",
   "status": "partial",
   "theorems": [
    "Verif.Unumsunt.C78_alternatives",
    "Verif.Unumsunt.C78_endless_false",
    "Verif.Unumsunt.C78_rest_false",
    "Verif.Unumsunt.C78_category_false",
    "Verif.Unumsunt.C78_reference_false"
   ],
   "note": "C78_alternatives: exactly what is made, if no new item meets the rule again. C78_endless_false: otherwise, if conditions do not ask for what is changed, applying never ends. C78_rest_false, C78_category_false, C78_reference_false: later commands, references for the category and references to the attribute itself are not treated alike for all alternatives."
  },
  {
   "property": "C79",
   "status": "partial",
   "theorems": [
    "Verif.Unumsunt.C79_convert",
    "Verif.Unumsunt.C79_renamed_partial",
    "Verif.Unumsunt.C79_collision_false",
    "Verif.Unumsunt.C79_special_false"
   ],
   "note": "C79_convert characterises the result in full; C79_renamed_partial: as wanted if no two attributes are mapped to one; C79_collision_false; C79_special_false: special values are not mapped by the words they are written with."
  },
  {
   "property": "C80",
   "status": "partial",
   "theorems": [
    "Verif.Unumsunt.C80_split",
    "Verif.Unumsunt.C80_lines",
    "Verif.Unumsunt.C80_skip",
    "Verif.Unumsunt.C80_split_false",
    "Verif.Unumsunt.C80_blank_false"
   ],
   "note": "C80_lines, C80_skip, C80_split: what is read, for all lines. C80_split_false: the rules a line is split into do not do what it says. C80_blank_false: reading stops at a blank line. Lines that begin with `@` are in the model, without theorems."
  },
  {
   "property": "C81",
   "status": "partial",
   "theorems": [
    "Verif.Lattice.C81_items",
    "Verif.Lattice.C81_within_edge_false",
    "Verif.Lattice.C81_used_up_false"
   ],
   "note": "C81_items: in full, if the cutter cuts at ends of edges of the path, makes items for at least one edge that are not there yet, and the lattice has no loose vertices. C81_within_edge_false: otherwise items are put on wrong places; C81_used_up_false: or the run ends with an exception."
  },
  {
   "property": "C82",
   "status": "partial",
   "theorems": [
    "Verif.Lattice.C82_once_partial",
    "Verif.Lattice.C82_beyond_false"
   ],
   "note": "C82_once_partial: one super edge, at the beginning of the text: the cutter is run exactly once. C82_beyond_false: with two adjoining super edges the text of the second is cut twice, as the path does not stop at the end of the edge."
  },
  {
   "property": "C83",
   "status": "partial",
   "theorems": [
    "Verif.Md5.C83_digest",
    "Verif.Md5.C83_text",
    "Verif.Md5.C83_same",
    "Verif.Md5.C83_final",
    "Verif.Md5.C83_large_false",
    "Verif.Md5.C83_behind_false"
   ],
   "note": "C83_digest, C83_text, C83_same, C83_final: in full if each piece has less than 2^32 - 64 bytes. C83_large_false, C83_behind_false: longer pieces are cut, or bytes behind them are read."
  },
  {
   "property": "C84",
   "status": "partial",
   "theorems": [
    "Verif.Md5.C84_stored",
    "Verif.Md5.C84_restart_false"
   ],
   "note": "C84_stored: in full for less than 10000 calls after a start, if files left from before do not have names that may still be given. C84_restart_false: a file can be lost after a restart."
  },
  {
   "property": "C85",
   "status": "proved",
   "theorems": [
    "Verif.Symal.C85_srctotgt",
    "Verif.Symal.C85_tgttosrc",
    "Verif.Symal.C85_intersect",
    "Verif.Symal.C85_union"
   ],
   "note": "C85_srctotgt, C85_tgttosrc, C85_intersect, C85_union. Reading the input file is not modelled; its assertions are hypotheses."
  },
  {
   "property": "C86",
   "status": "proved",
   "theorems": [
    "Verif.Symal.C86_grow",
    "Verif.Symal.C86_between",
    "Verif.Symal.C86_covered"
   ],
   "note": "C86_grow: termination, and the result is one of the definition. C86_between, C86_covered: consequences."
  },
  {
   "property": "C87",
   "status": "partial",
   "theorems": [
    "Verif.Morfologik.C87_every_tag",
    "Verif.Morfologik.C87_parse_partial",
    "Verif.Morfologik.C87_lost",
    "Verif.Morfologik.C87_unknown_false"
   ],
   "note": "C87_every_tag: every string is written for exactly one tag. C87_parse_partial: the result is the product, if each attribute with alternatives is the first of a known category; C87_lost: otherwise the result is empty, which C87_unknown_false shows on examples."
  },
  {
   "property": "C88",
   "status": "partial",
   "theorems": [
    "Verif.Morfologik.C88_forms_partial",
    "Verif.Morfologik.C88_no_forms",
    "Verif.Morfologik.C88_pos_false",
    "Verif.Morfologik.C88_speech",
    "Verif.Morfologik.C88_lexeme",
    "Verif.Morfologik.C88_split_partial",
    "Verif.Morfologik.C88_participle_false"
   ],
   "note": "C88_lexeme, C88_speech: the attributes of the lexeme, for all tags. C88_forms_partial, C88_no_forms: the forms, for all tags. C88_split_partial: nothing belongs to both, if the tag has the category pos. C88_pos_false: alternatives of the part of speech make all forms vanish. C88_participle_false: the aspect of a participle belongs to both."
  },
  {
   "property": "C89",
   "status": "partial",
   "theorems": [
    "Verif.Xml.C89_unescape",
    "Verif.Xml.C89_throws",
    "Verif.Xml.C89_diverges",
    "Verif.Xml.C89_rounds",
    "Verif.Xml.C89_escape",
    "Verif.Xml.C89_ends_false"
   ],
   "note": "C89_unescape, C89_throws, C89_diverges: which strings are decoded, rejected, make the loop run for ever; together these are all strings. C89_rounds: the bound on the rounds in the model does not matter. C89_escape: escaping is undone. C89_ends_false: it does not always end."
  },
  {
   "property": "C90",
   "status": "partial",
   "theorems": [
    "Verif.Xml.C90_tokens_partial",
    "Verif.Xml.C90_whole_partial",
    "Verif.Xml.C90_lost_false"
   ],
   "note": "C90_tokens_partial: the tokens of all lines. C90_whole_partial: nothing is lost exactly if there is a `>` behind each `<`. C90_lost_false: otherwise even the text before the tag is lost."
  },
  {
   "property": "C91",
   "status": "partial",
   "theorems": [
    "Verif.Xml.C91_value",
    "Verif.Xml.C91_list_partial",
    "Verif.Xml.C91_absent_partial",
    "Verif.Xml.C91_empty_false",
    "Verif.Xml.C91_suffix_false",
    "Verif.Xml.C91_equals_false"
   ],
   "note": "C91_value: what is returned, for all tags and names. C91_list_partial, C91_absent_partial: the value in a list of attributes, if those before it are harmless. C91_empty_false, C91_suffix_false, C91_equals_false: why this is needed."
  },
  {
   "property": "C92",
   "status": "partial",
   "theorems": [
    "Verif.Xml.C92_process_partial",
    "Verif.Xml.C92_words",
    "Verif.Xml.C92_plain",
    "Verif.Xml.C92_single",
    "Verif.Xml.C92_lost_false",
    "Verif.Xml.C92_escaped_false"
   ],
   "note": "C92_process_partial: which lines are accepted and what is returned, for all lines with a `<`. C92_words: the words of the result. C92_plain: lines without `<`. C92_single: a tag closed at once needs a span. C92_lost_false: the end of a line with a tag not closed is dropped without notice. C92_escaped_false: a line without tags is not decoded."
  },
  {
   "property": "C93",
   "status": "partial",
   "theorems": [
    "Verif.Xml.C93_connect_partial",
    "Verif.Xml.C93_roots_false",
    "Verif.Xml.C93_gap_false"
   ],
   "note": "C93_connect_partial: for all trees with one root in which no node has words of its own before its first child. C93_roots_false: two roots. C93_gap_false: a word before the first child."
  },
  {
   "property": "C94",
   "status": "partial",
   "theorems": [
    "Verif.Xml.C94_parse_partial",
    "Verif.Xml.C94_unique",
    "Verif.Xml.C94_tree_partial",
    "Verif.Xml.C94_ends_false"
   ],
   "note": "C94_parse_partial: for all nodes, if each word has a node of its own; C94_unique: the split points are determined by this; C94_tree_partial: they are the boundaries of children. C94_ends_false: otherwise the loop may run for ever."
  },
  {
   "property": "C95",
   "status": "proved",
   "theorems": [
    "Verif.Guess.C95_letters",
    "Verif.Guess.C95_invalid"
   ],
   "note": "C95_letters: the answer for all valid texts; C95_invalid: all other texts."
  },
  {
   "property": "C96",
   "status": "partial",
   "theorems": [
    "Verif.Guess.C96_counts_partial",
    "Verif.Guess.C96_nearest_partial",
    "Verif.Guess.C96_last_false",
    "Verif.Guess.C96_single",
    "Verif.Guess.C96_single_false"
   ],
   "note": "C96_counts_partial: the counts, the last bigram left out; C96_nearest_partial: the answer is the nearest language by these counts. C96_last_false: the last bigram is never counted. C96_single, C96_single_false: a text of one character of several bytes makes it throw."
  },
  {
   "property": "C97",
   "status": "partial",
   "theorems": [
    "Verif.Guess.C97_answer",
    "Verif.Guess.C97_forced",
    "Verif.Guess.C97_letters",
    "Verif.Guess.C97_default",
    "Verif.Guess.C97_bigrams",
    "Verif.Guess.C97_invalid",
    "Verif.Guess.C97_force_partial",
    "Verif.Guess.C97_force_false",
    "Verif.Guess.C97_create_partial",
    "Verif.Guess.C97_unknown_false"
   ],
   "note": "C97_answer, C97_forced, C97_letters, C97_default, C97_bigrams, C97_invalid: the answers without and with a forced language. C97_force_partial: with `--force`, except for a single character of several bytes; C97_force_false: why. C97_create_partial: the selection of languages; C97_unknown_false: with `--force` and one language the name is not checked."
  },
  {
   "property": "C98",
   "status": "partial",
   "theorems": [
    "Verif.Lattice.C98_text_all",
    "Verif.Lattice.C98_text_used",
    "Verif.Lattice.C98_loose",
    "Verif.Lattice.C98_back_false",
    "Verif.Lattice.C98_end",
    "Verif.Lattice.C98_end_false",
    "Verif.Lattice.C98_inside_false",
    "Verif.Lattice.C98_malformed_false"
   ],
   "note": "C98_text_all, C98_text_used, C98_end: without loose vertices. C98_loose: with loose vertices; sources before targets except for edges from a loose vertex back in the text. C98_back_false: such an edge; C98_end_false: with loose vertices `next` behind the end starts again; C98_inside_false, C98_malformed_false: why edges must begin and end between characters and the text must be well-formed."
  },
  {
   "property": "C99",
   "status": "partial",
   "theorems": [
    "Verif.Lattice.C99_edges",
    "Verif.Lattice.C99_exact_partial",
    "Verif.Lattice.C99_inside_false"
   ],
   "note": "C99_edges: exactly the edges that the lattice returns at their ends for the mask, once, sorted. C99_exact_partial: exactly those that match, if no edge has come to match since the mask was first used (see C05). C99_inside_false: edges that begin within a character are not found."
  },
  {
   "property": "C100",
   "status": "proved",
   "theorems": [
    "Verif.Lattice.C100_parent",
    "Verif.Lattice.C100_children",
    "Verif.Lattice.C100_twice_false",
    "Verif.Lattice.C100_descendants_false"
   ],
   "note": "C100_parent, C100_children: exactly, with how often a child is listed. C100_twice_false: a child is listed once for each partition that uses the parent; C100_descendants_false: only children, not \"all the descendents\" of the documentation. Partitions whose iteration throws are left out."
  },
  {
   "property": "C101",
   "status": "partial",
   "theorems": [
    "Verif.Lattice.C101_origin",
    "Verif.Lattice.C101_ends_partial",
    "Verif.Lattice.C101_nearest_false",
    "Verif.Lattice.C101_ends_false"
   ],
   "note": "C101_origin: what is found, in how many steps. C101_ends_partial: it ends if edges are made of older ones. C101_ends_false: it never ends on two edges made one of the other, which `addEdge` accepts; C101_nearest_false: only first parents are looked at."
  },
  {
   "property": "C102",
   "status": "partial",
   "theorems": [
    "Verif.Lattice.C102_ends",
    "Verif.Lattice.C102_path_partial",
    "Verif.Lattice.C102_blanks_partial",
    "Verif.Lattice.C102_throws_false",
    "Verif.Lattice.C102_other_false"
   ],
   "note": "C102_ends: it ends, with a chain of edges or with an exception. C102_path_partial, C102_blanks_partial: the documented path, if wherever nothing matches the first edge and no other is to be skipped. C102_throws_false: a blank that comes last makes it throw; C102_other_false: an edge that neither matches nor is blank is followed."
  },
  {
   "property": "C103",
   "status": "partial",
   "theorems": [
    "Verif.Numconv.C103_cardinal",
    "Verif.Numconv.C103_injective",
    "Verif.Numconv.C103_refused_false"
   ],
   "note": "C103_cardinal, C103_injective: all strings of digits below 10^660. C103_refused_false: 2·10^660 is neither written nor refused (*dwa #*)."
  },
  {
   "property": "C104",
   "status": "partial",
   "theorems": [
    "Verif.Numconv.C104_ordinal",
    "Verif.Numconv.C104_plural_partial",
    "Verif.Numconv.C104_plural_false"
   ],
   "note": "C104_ordinal: masculine and feminine in full. C104_plural_partial: plurals if the last group not of zeros is the last one or a one; C104_plural_false: *dwatysięczne*."
  },
  {
   "property": "C105",
   "status": "partial",
   "theorems": [
    "Verif.Numconv.C105_decimal_partial",
    "Verif.Numconv.C105_sign",
    "Verif.Numconv.C105_percent",
    "Verif.Numconv.C105_sum",
    "Verif.Numconv.C105_fraction_partial",
    "Verif.Numconv.C105_zeros_false",
    "Verif.Numconv.C105_fraction_false",
    "Verif.Numconv.C105_refused_false"
   ],
   "note": "C105_sign, C105_percent, C105_sum, C105_decimal_partial, C105_fraction_partial. C105_zeros_false: one zero too many; C105_fraction_false: numerators above 999 refused; C105_refused_false: `#` is not kept after a sign or before a per cent."
  },
  {
   "property": "C106",
   "status": "partial",
   "theorems": [
    "Verif.Numconv.C106_cardinal",
    "Verif.Numconv.C106_other",
    "Verif.Numconv.C106_total_false"
   ],
   "note": "C106_cardinal, C106_other: exactly which strings read out of bounds. C106_total_false: some do."
  },
  {
   "property": "C107",
   "status": "partial",
   "theorems": [
    "Verif.Numconv.C107_whole",
    "Verif.Numconv.C107_greater_partial",
    "Verif.Numconv.C107_range_false"
   ],
   "note": "C107_whole: exactly, for whole numbers without zeros before them. C107_greater_partial: the greater first gives a difference. C107_range_false: \"1,25-1,31\", \"1,50-1,5\", \"007-12\" are said to be differences."
  },
  {
   "property": "C108",
   "status": "partial",
   "theorems": [
    "Verif.Numconv.C108_cardinal",
    "Verif.Numconv.C108_ordinal_partial",
    "Verif.Numconv.C108_decimal",
    "Verif.Numconv.C108_codes_false"
   ],
   "note": "C108_cardinal, C108_decimal, C108_ordinal_partial. C108_codes_false: plural ordinals of thousands, numbers before nouns."
  },
  {
   "property": "C109",
   "status": "partial",
   "theorems": [
    "Verif.Lattice.C109_insert_partial",
    "Verif.Lattice.C109_alternatives_false",
    "Verif.Lattice.C109_end_loop",
    "Verif.Lattice.C109_end_false",
    "Verif.Lattice.C109_end_cycle",
    "Verif.Lattice.C109_empty_undefined",
    "Verif.Lattice.C109_empty_false"
   ],
   "note": "C109_insert_partial: before the first symbol at a position of the text. C109_alternatives_false: not before the others. C109_end_loop, C109_end_false, C109_end_cycle: where nothing can be read one character throws and more make a cycle. C109_empty_undefined, C109_empty_false: the empty text is undefined behaviour."
  },
  {
   "property": "C110",
   "status": "partial",
   "theorems": [
    "Verif.Lattice.C110_erase_partial",
    "Verif.Lattice.C110_end",
    "Verif.Lattice.C110_end_false",
    "Verif.Lattice.C110_alternatives_false"
   ],
   "note": "C110_erase_partial: ranges followed by a character. C110_end, C110_end_false: ranges at the end are refused. C110_alternatives_false: only the first symbol after the range."
  },
  {
   "property": "C111",
   "status": "partial",
   "theorems": [
    "Verif.Lattice.C111_replace_partial",
    "Verif.Lattice.C111_shorter_partial",
    "Verif.Lattice.C111_shorter_false",
    "Verif.Lattice.C111_longer",
    "Verif.Lattice.C111_longer_false",
    "Verif.Lattice.C111_nothing",
    "Verif.Lattice.C111_disorder_false"
   ],
   "note": "C111_replace_partial: as many characters. C111_shorter_partial: fewer, if a character follows. C111_shorter_false: otherwise an exception after changes. C111_longer: what is read for longer texts; C111_longer_false: it is not the text. C111_disorder_false: after another history no effect."
  },
  {
   "property": "C112",
   "status": "partial",
   "theorems": [
    "Verif.Iconv.C112_inverse",
    "Verif.Iconv.C112_injective",
    "Verif.Iconv.C112_standard",
    "Verif.Iconv.C112_ascii",
    "Verif.Iconv.C112_mac_partial",
    "Verif.Iconv.C112_mac_false"
   ],
   "note": "C112_inverse, C112_injective: all 28 tables. C112_standard: 25 of them against the standard; C112_ascii. C112_mac_partial, C112_mac_false: Mac Cyrillic differs in three places. KOI8-RU has no standard table and is only covered by C112_inverse."
  },
  {
   "property": "C113",
   "status": "partial",
   "theorems": [
    "Verif.Iconv.C113_decode",
    "Verif.Iconv.C113_encode",
    "Verif.Iconv.C113_unicode_partial",
    "Verif.Iconv.C113_unicode_false",
    "Verif.Iconv.C113_few_partial",
    "Verif.Iconv.C113_few_false"
   ],
   "note": "C113_decode, C113_encode: exactly RFC 2279. C113_unicode_partial, C113_unicode_false: surrogates and numbers above 10FFFF are accepted. C113_few_partial, C113_few_false: some illegal sequences are taken for incomplete ones."
  },
  {
   "property": "C114",
   "status": "partial",
   "theorems": [
    "Verif.Iconv.C114_decode",
    "Verif.Iconv.C114_encode",
    "Verif.Iconv.C114_round_trip",
    "Verif.Iconv.C114_end_false"
   ],
   "note": "C114_decode, C114_encode, C114_round_trip: with the end that utf7_reset writes. C114_end_false: tiniconv_convert never writes it."
  },
  {
   "property": "C115",
   "status": "partial",
   "theorems": [
    "Verif.Iconv.C115_decode",
    "Verif.Iconv.C115_encode_partial",
    "Verif.Iconv.C115_mark_false"
   ],
   "note": "C115_decode. C115_encode_partial: without U+FEFF. C115_mark_false: U+FEFF is written and then taken for a mark."
  },
  {
   "property": "C116",
   "status": "partial",
   "theorems": [
    "Verif.Iconv.C116_whole",
    "Verif.Iconv.C116_pieces",
    "Verif.Iconv.C116_ok_false",
    "Verif.Iconv.C116_safe",
    "Verif.Iconv.C116_illegal",
    "Verif.Iconv.C116_unwritable"
   ],
   "note": "C116_whole, C116_pieces, C116_safe, C116_illegal (from UTF-8), C116_unwritable (UTF-8 to one byte). C116_ok_false: OK is also returned if the buffer is full and input is left. Missing: stopping for the other encodings, the ignore options, CP1255, CP1258 and the East Asian encodings."
  },
  {
   "property": "C117",
   "status": "partial",
   "theorems": [
    "Verif.Iconv.C117_convert_partial",
    "Verif.Iconv.C117_encodings",
    "Verif.Iconv.C117_safe",
    "Verif.Iconv.C117_long",
    "Verif.Iconv.C117_long_false",
    "Verif.Iconv.C117_unknown",
    "Verif.Iconv.C117_unwritable",
    "Verif.Iconv.C117_incomplete_false",
    "Verif.Iconv.C117_target",
    "Verif.Iconv.C117_target_false",
    "Verif.Iconv.C117_ucs2_false",
    "Verif.Iconv.C117_names"
   ],
   "note": "C117_convert_partial, C117_unknown, C117_unwritable, C117_safe, C117_encodings (which name stands for which encoding). C117_long, C117_long_false: more than 99999 bytes are cut off. C117_incomplete_false, C117_target, C117_target_false, C117_ucs2_false, C117_names: other failures. detect() (uchardet) is not modelled."
  },
  {
   "property": "C118",
   "status": "proved",
   "theorems": [
    "Verif.Casing.C118_search",
    "Verif.Casing.C118_ordered",
    "Verif.Casing.C118_lower",
    "Verif.Casing.C118_upper",
    "Verif.Casing.C118_title"
   ],
   "note": "C118_lower, C118_upper, C118_title: for all code points. C118_search, C118_ordered: the search."
  },
  {
   "property": "C119",
   "status": "partial",
   "theorems": [
    "Verif.Casing.C119_table",
    "Verif.Casing.C119_special_false",
    "Verif.Casing.C119_special_partial",
    "Verif.Casing.C119_lower",
    "Verif.Casing.C119_upper_false",
    "Verif.Casing.C119_upper_partial",
    "Verif.Casing.C119_title_partial"
   ],
   "note": "C119_table: the tables are complete. C119_special_false, C119_upper_false: most rows are never found. C119_special_partial: exactly 14 of 103 are. C119_lower: lower case is right nevertheless. C119_upper_partial, C119_title_partial. The conditional row for the final sigma is not handled by the code at all."
  },
  {
   "property": "C120",
   "status": "partial",
   "theorems": [
    "Verif.Casing.C120_wellformed",
    "Verif.Casing.C120_append",
    "Verif.Casing.C120_lower_idempotent",
    "Verif.Casing.C120_upper_idempotent",
    "Verif.Casing.C120_title_idempotent_false",
    "Verif.Casing.C120_title_idempotent_partial",
    "Verif.Casing.C120_upper_title",
    "Verif.Casing.C120_upper_lower_partial",
    "Verif.Casing.C120_lower_upper_partial"
   ],
   "note": "C120_wellformed, C120_append, C120_lower_idempotent, C120_upper_idempotent, C120_upper_title. C120_title_idempotent_false, _partial. C120_upper_lower_partial, C120_lower_upper_partial: with the exact list of exceptions."
  },
  {
   "property": "C121",
   "status": "partial",
   "theorems": [
    "Verif.Casing.C121_languages",
    "Verif.Casing.C121_lower_false",
    "Verif.Casing.C121_lower_partial",
    "Verif.Casing.C121_upper_partial",
    "Verif.Casing.C121_head_false"
   ],
   "note": "C121_lower_partial: texts without marks of a combining class other than 0 and 230. C121_lower_false. C121_upper_partial, C121_languages. C121_head_false."
  },
  {
   "property": "C122",
   "status": "partial",
   "theorems": [
    "Verif.Casing.C122_untouched",
    "Verif.Casing.C122_touched_false",
    "Verif.Casing.C122_touched_partial",
    "Verif.Casing.C122_head_tail",
    "Verif.Casing.C122_parts"
   ],
   "note": "C122_untouched (all languages), C122_head_tail, C122_parts. C122_touched_false: sharp s; C122_touched_partial."
  },
  {
   "property": "C123",
   "status": "partial",
   "theorems": [
    "Verif.Casing.C123_lookups",
    "Verif.Casing.C123_lower_false",
    "Verif.Casing.C123_lower_partial",
    "Verif.Casing.C123_once_false",
    "Verif.Casing.C123_once_partial"
   ],
   "note": "C123_lookups: exactly which spellings. C123_lower_false: not in lower case if the word is in capitals; C123_lower_partial. C123_once_false: sharp s; C123_once_partial."
  },
  {
   "property": "C124",
   "status": "partial",
   "theorems": [
    "Verif.Casing.C124_belongs",
    "Verif.Casing.C124_complete",
    "Verif.Casing.C124_form_false",
    "Verif.Casing.C124_defined_partial",
    "Verif.Casing.C124_apart_false",
    "Verif.Casing.C124_apart_partial"
   ],
   "note": "C124_belongs, C124_complete: in all runs that are defined. C124_form_false, C124_defined_partial: undefined exactly if a form comes first. C124_apart_false, C124_apart_partial."
  },
  {
   "property": "C125",
   "status": "proved",
   "theorems": [
    "Verif.Lexicon.C125_reads",
    "Verif.Lexicon.C125_files",
    "Verif.Lexicon.C125_refused"
   ],
   "note": "C125_reads: exactly what is read, an indented line being nothing (C126). C125_files: for every file. C125_refused: exactly when an exception is thrown."
  },
  {
   "property": "C126",
   "status": "partial",
   "theorems": [
    "Verif.Lexicon.C126_false",
    "Verif.Lexicon.C126_dropped",
    "Verif.Lexicon.C126_partial"
   ],
   "note": "C126_false: a line that begins with a space or a tab is skipped. C126_dropped: whatever it says. C126_partial: lexica without such lines."
  },
  {
   "property": "C127",
   "status": "proved",
   "theorems": [
    "Verif.Lexicon.C127_records"
   ],
   "note": "C127_records. A field with \";\" comes in pieces, as the statement shows."
  },
  {
   "property": "C128",
   "status": "partial",
   "theorems": [
    "Verif.Lexicon.C128_distinct",
    "Verif.Lexicon.C128_false",
    "Verif.Lexicon.C128_apart"
   ],
   "note": "C128_distinct: exactly if equal keys stand together. C128_apart, C128_false: otherwise no hash function exists."
  },
  {
   "property": "C129",
   "status": "partial",
   "theorems": [
    "Verif.Lexicon.C129_round_trip",
    "Verif.Lexicon.C129_needed"
   ],
   "note": "C129_round_trip: entries without \"#\" and empty fields. C129_needed: others cannot be written in any way."
  },
  {
   "property": "C130",
   "status": "partial",
   "theorems": [
    "Verif.Lexicon.C130_fields",
    "Verif.Lexicon.C130_bare",
    "Verif.Lexicon.C130_false"
   ],
   "note": "C130_fields: fields without tabs. C130_bare. C130_false: tabs and \";\"."
  },
  {
   "property": "C131",
   "status": "partial",
   "theorems": [
    "Verif.Lexicon.C131_key",
    "Verif.Lexicon.C131_order_free",
    "Verif.Lexicon.C131_false",
    "Verif.Lexicon.C131_partial"
   ],
   "note": "C131_key, C131_order_free. C131_false: commas. C131_partial: text and category without commas; with attributes nothing is proved about different edges."
  },
  {
   "property": "C132",
   "status": "partial",
   "theorems": [
    "Verif.Lexicon.C132_item",
    "Verif.Lexicon.C132_unknown",
    "Verif.Lexicon.C132_set",
    "Verif.Lexicon.C132_clone_false",
    "Verif.Lexicon.C132_clone_partial",
    "Verif.Lexicon.C132_defined"
   ],
   "note": "C132_item, C132_unknown, C132_defined, C132_set: all but the values of cloned attributes. C132_clone_false: symbols that look like numbers; C132_clone_partial."
  },
  {
   "property": "C133",
   "status": "proved",
   "theorems": [
    "Verif.Lexicon.C133_found",
    "Verif.Lexicon.C133_unknown"
   ],
   "note": "C133_found, C133_unknown."
  },
  {
   "property": "C134",
   "status": "partial",
   "theorems": [
    "Verif.Lexicon.C134_lexeme",
    "Verif.Lexicon.C134_bare",
    "Verif.Lexicon.C134_false"
   ],
   "note": "C134_lexeme: lemmata without a plus sign. C134_bare. C134_false."
  },
  {
   "property": "C135",
   "status": "partial",
   "theorems": [
    "Verif.Lexicon.C135_normalize_partial",
    "Verif.Lexicon.C135_undefined",
    "Verif.Lexicon.C135_false"
   ],
   "note": "C135_normalize_partial: tables with a tab in each line. C135_undefined, C135_false: exactly the others are undefined behaviour."
  },
  {
   "property": "C136",
   "status": "partial",
   "theorems": [
    "Verif.Lexicon.C136_text",
    "Verif.Lexicon.C136_partial",
    "Verif.Lexicon.C136_false",
    "Verif.Lexicon.C136_positions"
   ],
   "note": "C136_text: exactly which text is made. C136_partial: tokens with distinct positions, C136_positions. C136_false: tokens without a position are lost but the last."
  },
  {
   "property": "C137",
   "status": "proved",
   "theorems": [
    "Verif.Zval.C137_bag"
   ],
   "note": "C137_bag. First sizes are powers of two, up to 2^29, and at most 2^28 calls, so that sizes stay within 32 bits."
  },
  {
   "property": "C138",
   "status": "proved",
   "theorems": [
    "Verif.Zval.C138_map"
   ],
   "note": "C138_map, with the same bounds."
  },
  {
   "property": "C139",
   "status": "partial",
   "theorems": [
    "Verif.Zval.C139_partial",
    "Verif.Zval.C139_false"
   ],
   "note": "C139_false: the older or the newer value is found depending on a deleted other key. C139_partial: one of the values is found."
  },
  {
   "property": "C140",
   "status": "partial",
   "theorems": [
    "Verif.Zval.C140_forever",
    "Verif.Zval.C140_false",
    "Verif.Zval.C140_partial"
   ],
   "note": "C140_forever: exactly when the loops never end. C140_false: tables of ten slots, which the transferer uses. C140_partial: powers of two."
  },
  {
   "property": "C141",
   "status": "proved",
   "theorems": [
    "Verif.Zval.C141_interned"
   ],
   "note": "C141_interned: at most 2^28 calls."
  },
  {
   "property": "C142",
   "status": "partial",
   "theorems": [
    "Verif.Zval.C142_false",
    "Verif.Zval.C142_partial"
   ],
   "note": "C142_false: NULL is returned. C142_partial: the symbol is unknown afterwards."
  },
  {
   "property": "C143",
   "status": "proved",
   "theorems": [
    "Verif.Zval.C143_concat",
    "Verif.Zval.C143_two_spaces"
   ],
   "note": "C143_concat. C143_two_spaces shows texts with spaces at both sides of the seam, which get two."
  },
  {
   "property": "C144",
   "status": "partial",
   "theorems": [
    "Verif.Zval.C144_false",
    "Verif.Zval.C144_partial"
   ],
   "note": "C144_false: remove writes behind the block if the vector has ten slots and nine elements. C144_partial: otherwise."
  },
  {
   "property": "C145",
   "status": "proved",
   "theorems": [
    "Verif.Zval.C145_trees"
   ],
   "note": "C145_trees. Attributes and references are kept as in an environment that is a map (C138)."
  },
  {
   "property": "C146",
   "status": "partial",
   "theorems": [
    "Verif.Zval.C146_false",
    "Verif.Zval.C146_partial"
   ],
   "note": "C146_false: a tree can be put into itself. C146_partial: sequences in which that is not tried."
  },
  {
   "property": "C147",
   "status": "partial",
   "theorems": [
    "Verif.Zval.C147_false",
    "Verif.Zval.C147_partial"
   ],
   "note": "C147_false: a second reference stays, and the old number behind the last. C147_partial: one reference."
  },
  {
   "property": "C148",
   "status": "proved",
   "theorems": [
    "Verif.Zval.C148_find"
   ],
   "note": "C148_find."
  },
  {
   "property": "C149",
   "status": "proved",
   "theorems": [
    "Verif.Zval.C149_inherit"
   ],
   "note": "C149_inherit; the tree is not a subtree of itself."
  },
  {
   "property": "C150",
   "status": "proved",
   "theorems": [
    "Verif.Zval.C150_sort"
   ],
   "note": "C150_sort. About a named and an unnamed subtree nothing is claimed."
  },
  {
   "property": "C151",
   "status": "proved",
   "theorems": [
    "Verif.Zval.C151_equivalents",
    "Verif.Zval.C151_self"
   ],
   "note": "C151_equivalents."
  },
  {
   "property": "C152",
   "status": "proved",
   "theorems": [
    "Verif.Dag.C152_search",
    "Verif.Dag.C152_sorted",
    "Verif.Dag.C152_new_arc"
   ],
   "note": "C152_search, C152_sorted, C152_new_arc."
  },
  {
   "property": "C153",
   "status": "partial",
   "theorems": [
    "Verif.Dag.C153_in",
    "Verif.Dag.C153_in_word",
    "Verif.Dag.C153_nondeterministic_false"
   ],
   "note": "C153_in: deterministic automata with the initial state 0 (as determinize makes them). C153_in_word: soundness for all automata. C153_nondeterministic_false: otherwise words are missed."
  },
  {
   "property": "C154",
   "status": "proved",
   "theorems": [
    "Verif.Dag.C154_reverse"
   ],
   "note": "C154_reverse."
  },
  {
   "property": "C155",
   "status": "proved",
   "theorems": [
    "Verif.Dag.C155_determinize",
    "Verif.Dag.C155_membership",
    "Verif.Dag.C155_bound"
   ],
   "note": "C155_determinize, C155_membership, C155_bound."
  },
  {
   "property": "C156",
   "status": "proved",
   "theorems": [
    "Verif.Dag.C156_minimize",
    "Verif.Dag.C156_unique"
   ],
   "note": "C156_minimize, C156_unique."
  },
  {
   "property": "C157",
   "status": "proved",
   "theorems": [
    "Verif.Dag.C157_union",
    "Verif.Dag.C157_det_union"
   ],
   "note": "C157_union, C157_det_union; an automaton is not joined with itself in place."
  },
  {
   "property": "C158",
   "status": "proved",
   "theorems": [
    "Verif.Dag.C158_hash",
    "Verif.Dag.C158_dictionary"
   ],
   "note": "C158_hash, C158_dictionary; automata without cycles whose arcs are in order (as compress makes them)."
  },
  {
   "property": "C159",
   "status": "proved",
   "theorems": [
    "Verif.Dag.C159_unhash",
    "Verif.Dag.C159_back"
   ],
   "note": "C159_unhash, C159_back."
  },
  {
   "property": "C160",
   "status": "proved",
   "theorems": [
    "Verif.Dag.C160_intersect"
   ],
   "note": "C160_intersect."
  },
  {
   "property": "C161",
   "status": "partial",
   "theorems": [
    "Verif.Dag.C161_subsets_partial",
    "Verif.Dag.C161_too_many_false"
   ],
   "note": "C161_subsets_partial: for 1 ≤ k ≤ n. C161_too_many_false: for k > n a list that is no subset is given and then the list is read outside."
  },
  {
   "property": "C162",
   "status": "partial",
   "theorems": [
    "Verif.Dag.C162_prune_partial",
    "Verif.Dag.C162_wide_false"
   ],
   "note": "C162_prune_partial: at most as many nonterminals as symbols. C162_wide_false: with wider limits words are lost or the list is read outside."
  },
  {
   "property": "C163",
   "status": "partial",
   "theorems": [
    "Verif.Dag.C163_multihash_partial",
    "Verif.Dag.C163_loses_false"
   ],
   "note": "C163_multihash_partial: soundness always; completeness if each pair of states is reached by words of one length only. C163_loses_false: else words are lost."
  },
  {
   "property": "C164",
   "status": "proved",
   "theorems": [
    "Verif.Minfsa.C164_words"
   ],
   "note": "C164_words."
  },
  {
   "property": "C165",
   "status": "proved",
   "theorems": [
    "Verif.Minfsa.C165_deterministic",
    "Verif.Minfsa.C165_minimal",
    "Verif.Minfsa.C165_trim"
   ],
   "note": "C165_deterministic, C165_minimal, C165_trim."
  },
  {
   "property": "C166",
   "status": "proved",
   "theorems": [
    "Verif.Minfsa.C166_prefix",
    "Verif.Minfsa.C166_empty",
    "Verif.Minfsa.C166_unsorted_false"
   ],
   "note": "C166_prefix, C166_empty; C166_unsorted_false: the construction is not right for all lists of words."
  },
  {
   "property": "C167",
   "status": "partial",
   "theorems": [
    "Verif.Irstlm.C167_new",
    "Verif.Irstlm.C167_allocate",
    "Verif.Irstlm.C167_apart",
    "Verif.Irstlm.C167_reuse",
    "Verif.Irstlm.C167_doublefree",
    "Verif.Irstlm.C167_storage_false",
    "Verif.Irstlm.C167_storage_partial",
    "Verif.Irstlm.C167_leak_false"
   ],
   "note": "C167_new, C167_allocate, C167_apart, C167_reuse, C167_doublefree (misuse). Of storage: C167_storage_false (sizes greater than the size of blocks, and 0), C167_storage_partial for the other sizes; C167_leak_false (large memory is never given back)."
  },
  {
   "property": "C168",
   "status": "partial",
   "theorems": [
    "Verif.Irstlm.C168_read",
    "Verif.Irstlm.C168_push",
    "Verif.Irstlm.C168_empty",
    "Verif.Irstlm.C168_pop_partial",
    "Verif.Irstlm.C168_pop_false",
    "Verif.Irstlm.C168_emptied_false"
   ],
   "note": "C168_read, C168_push, C168_empty in full. C168_pop_partial for strings that are not empty and have more than one character at the beginning of a block; C168_pop_false is the witness that this is needed; C168_emptied_false."
  },
  {
   "property": "C169",
   "status": "proved",
   "theorems": [
    "Verif.Irstlm.C169_find",
    "Verif.Irstlm.C169_scan",
    "Verif.Irstlm.C169_zero_false"
   ],
   "note": "C169_find, C169_scan for all tables with chains; C169_zero_false: no chains are a division by zero."
  },
  {
   "property": "C170",
   "status": "proved",
   "theorems": [
    "Verif.Irstlm.C170_getcode",
    "Verif.Irstlm.C170_once",
    "Verif.Irstlm.C170_known",
    "Verif.Irstlm.C170_new",
    "Verif.Irstlm.C170_decode",
    "Verif.Irstlm.C170_roundtrip",
    "Verif.Irstlm.C170_small_false"
   ],
   "note": "C170_getcode, C170_once, C170_known, C170_new, C170_decode, C170_roundtrip for sizes from 5; C170_small_false: smaller ones have no chains."
  },
  {
   "property": "C171",
   "status": "partial",
   "theorems": [
    "Verif.Irstlm.C171_closed_partial",
    "Verif.Irstlm.C171_twice_false",
    "Verif.Irstlm.C171_endless_false",
    "Verif.Irstlm.C171_oovrate_false"
   ],
   "note": "C171_closed_partial if the code for unknown words is that of <unk> (OovRight). C171_twice_false, C171_endless_false, C171_oovrate_false otherwise."
  },
  {
   "property": "C172",
   "status": "partial",
   "theorems": [
    "Verif.Irstlm.C172_generate_partial",
    "Verif.Irstlm.C172_long_false"
   ],
   "note": "C172_generate_partial for words of at most 999 characters; C172_long_false: longer words are split."
  },
  {
   "property": "C173",
   "status": "partial",
   "theorems": [
    "Verif.Irstlm.C173_roundtrip_partial",
    "Verif.Irstlm.C173_repeated",
    "Verif.Irstlm.C173_unk_false",
    "Verif.Irstlm.C173_long_false"
   ],
   "note": "C173_roundtrip_partial for different words of less than 999 characters, C173_repeated. C173_unk_false, C173_long_false."
  },
  {
   "property": "C174",
   "status": "partial",
   "theorems": [
    "Verif.Irstlm.C174_copy",
    "Verif.Irstlm.C174_sorted_partial",
    "Verif.Irstlm.C174_order_false",
    "Verif.Irstlm.C174_cycle_false",
    "Verif.Irstlm.C174_oovlex_false"
   ],
   "note": "C174_copy in full; C174_sorted_partial if frequencies differ by less than 2^31; C174_order_false, C174_cycle_false otherwise; C174_oovlex_false."
  },
  {
   "property": "C175",
   "status": "partial",
   "theorems": [
    "Verif.Puddle.C175_clean",
    "Verif.Puddle.C175_injective",
    "Verif.Puddle.C175_references_partial",
    "Verif.Puddle.C175_references_false",
    "Verif.Puddle.C175_back_false",
    "Verif.Puddle.C175_back_partial",
    "Verif.Puddle.C175_plain"
   ],
   "note": "C175_clean, C175_injective in full. C175_references_partial and C175_back_partial: plus and asterisk are exchanged, and some references that are in the text itself are replaced (C175_references_false, C175_back_false); C175_plain."
  },
  {
   "property": "C176",
   "status": "partial",
   "theorems": [
    "Verif.Puddle.C176_span",
    "Verif.Puddle.C176_before",
    "Verif.Puddle.C176_outside",
    "Verif.Puddle.C176_group",
    "Verif.Puddle.C176_head_partial",
    "Verif.Puddle.C176_head_false",
    "Verif.Puddle.C176_kept",
    "Verif.Puddle.C176_kept_false"
   ],
   "note": "C176_span, C176_before, C176_group, C176_kept in full. C176_head_partial without left context, C176_head_false with one; C176_kept_false: heads outside of the group; C176_outside."
  },
  {
   "property": "C177",
   "status": "proved",
   "theorems": [
    "Verif.Puddle.C177_move",
    "Verif.Puddle.C177_end",
    "Verif.Puddle.C177_back",
    "Verif.Puddle.C177_delete"
   ],
   "note": "C177_move, C177_back, C177_delete; C177_end: a rule cannot be moved behind the last one."
  },
  {
   "property": "C178",
   "status": "partial",
   "theorems": [
    "Verif.Puddle.C178_agree",
    "Verif.Puddle.C178_agree_false",
    "Verif.Puddle.C178_agree_partial",
    "Verif.Puddle.C178_sizes",
    "Verif.Puddle.C178_all"
   ],
   "note": "C178_agree, C178_sizes, C178_all in full. C178_agree_partial: only if, for rules whose last element has no token to spare; C178_agree_false otherwise."
  },
  {
   "property": "C179",
   "status": "partial",
   "theorems": [
    "Verif.Puddle.C179_labels",
    "Verif.Puddle.C179_order_partial",
    "Verif.Puddle.C179_order_false"
   ],
   "note": "C179_labels says which labels are proper: the values are in the order of the names of their attributes. C179_order_partial: this is the order of the declaration if attributes are declared in the order of their names. C179_order_false otherwise."
  },
  {
   "property": "C180",
   "status": "partial",
   "theorems": [
    "Verif.Puddle.C180_read",
    "Verif.Puddle.C180_sound",
    "Verif.Puddle.C180_all_false",
    "Verif.Puddle.C180_unknown_false",
    "Verif.Puddle.C180_unknown_partial"
   ],
   "note": "C180_read (choices that leave nothing open), C180_sound in full. C180_all_false: after an unknown value the others are lost, and so are those of proper labels. C180_unknown_false, C180_unknown_partial."
  },
  {
   "property": "C181",
   "status": "partial",
   "theorems": [
    "Verif.Puddle.C181_common",
    "Verif.Puddle.C181_only_partial",
    "Verif.Puddle.C181_only_false",
    "Verif.Puddle.C181_nulls"
   ],
   "note": "C181_common, C181_nulls in full. C181_only_partial if at most two tokens have values, C181_only_false with three."
  },
  {
   "property": "C182",
   "status": "partial",
   "theorems": [
    "Verif.Puddle.C182_kept",
    "Verif.Puddle.C182_agree_partial",
    "Verif.Puddle.C182_null",
    "Verif.Puddle.C182_discarded_partial",
    "Verif.Puddle.C182_kept_stay",
    "Verif.Puddle.C182_discarded_false",
    "Verif.Puddle.C182_agree_false"
   ],
   "note": "C182_kept says what is kept. C182_agree_partial if all readings have values; C182_null, C182_agree_false otherwise. C182_discarded_partial and C182_kept_stay if each index refers to one token; C182_discarded_false otherwise."
  },
  {
   "property": "C183",
   "status": "proved",
   "theorems": [
    "Verif.Puddle.C183_partitions",
    "Verif.Puddle.C183_unified"
   ],
   "note": "C183_partitions, C183_unified for partitions of which no two edges begin at the same vertex."
  },
  {
   "property": "C184",
   "status": "partial",
   "theorems": [
    "Verif.Puddle.C184_delete_partial",
    "Verif.Puddle.C184_delete",
    "Verif.Puddle.C184_all_false",
    "Verif.Puddle.C184_test"
   ],
   "note": "C184_delete says what is discarded for all conditions; C184_delete_partial for one condition on the morphology is the property; C184_all_false otherwise. C184_test: the test does not depend on the conditions."
  },
  {
   "property": "C185",
   "status": "partial",
   "theorems": [
    "Verif.Fsa.C185_language",
    "Verif.Fsa.C185_accepted_partial",
    "Verif.Fsa.C185_accepted_false",
    "Verif.Fsa.C185_sorted"
   ],
   "note": "C185_language (labels of paths), C185_sorted in full. C185_accepted_partial without epsilon transitions; C185_accepted_false: otherwise the symbol of epsilon is in the words."
  },
  {
   "property": "C186",
   "status": "proved",
   "theorems": [
    "Verif.Zlib.C186_stored",
    "Verif.Zlib.C186_remainder",
    "Verif.Zlib.C186_seven"
   ],
   "note": "C186_stored (a finite check of 2048 entries), C186_remainder, C186_seven."
  },
  {
   "property": "C187",
   "status": "proved",
   "theorems": [
    "Verif.Zlib.C187_unique",
    "Verif.Zlib.C187_crc",
    "Verif.Zlib.C187_null",
    "Verif.Zlib.C187_seven"
   ],
   "note": "C187_crc, C187_unique, C187_seven, C187_null."
  },
  {
   "property": "C188",
   "status": "partial",
   "theorems": [
    "Verif.Zlib.C188_parts",
    "Verif.Zlib.C188_combine",
    "Verif.Zlib.C188_ends_false",
    "Verif.Zlib.C188_ends_partial"
   ],
   "note": "C188_parts and C188_combine in full. C188_ends_partial for lengths that are not negative; C188_ends_false otherwise."
  },
  {
   "property": "C189",
   "status": "proved",
   "theorems": [
    "Verif.Zlib.C189_burst",
    "Verif.Zlib.C189_bytes"
   ],
   "note": "C189_burst, C189_bytes."
  },
  {
   "property": "C190",
   "status": "partial",
   "theorems": [
    "Verif.Zlib.C190_parts",
    "Verif.Zlib.C190_adler",
    "Verif.Zlib.C190_null_partial",
    "Verif.Zlib.C190_null_false"
   ],
   "note": "C190_adler, C190_parts in full. C190_null_partial unless the length is one, C190_null_false."
  },
  {
   "property": "C191",
   "status": "partial",
   "theorems": [
    "Verif.Zlib.C191_combine",
    "Verif.Zlib.C191_combine_partial",
    "Verif.Zlib.C191_combine_false"
   ],
   "note": "C191_combine says what is computed in all cases; C191_combine_partial if no sum of the whole message is zero; C191_combine_false otherwise."
  },
  {
   "property": "C192",
   "status": "proved",
   "theorems": [
    "Verif.Zlib.C192_byte",
    "Verif.Zlib.C192_swap"
   ],
   "note": "C192_byte, C192_swap."
  },
  {
   "property": "C193",
   "status": "proved",
   "theorems": [
    "Verif.Zlib.C193_refused",
    "Verif.Zlib.C193_no_wild",
    "Verif.Zlib.C193_empty_codes"
   ],
   "note": "C193_refused, C193_no_wild; C193_empty_codes: what becomes of a set of lengths of codes that are all zero."
  },
  {
   "property": "C194",
   "status": "proved",
   "theorems": [
    "Verif.Zlib.C194_decodes",
    "Verif.Zlib.C194_needs_more",
    "Verif.Zlib.C194_no_code",
    "Verif.Zlib.C194_one_code"
   ],
   "note": "C194_decodes, C194_needs_more, C194_no_code, C194_one_code (codes are not beginnings of each other; complete codes cover all streams)."
  },
  {
   "property": "C195",
   "status": "proved",
   "theorems": [
    "Verif.Zlib.C195_bound",
    "Verif.Zlib.C195_enough",
    "Verif.Zlib.C195_fit"
   ],
   "note": "C195_bound, C195_enough, C195_fit."
  },
  {
   "property": "C196",
   "status": "proved",
   "theorems": [
    "Verif.Zlib.C196_lengths",
    "Verif.Zlib.C196_distances"
   ],
   "note": "C196_lengths, C196_distances."
  },
  {
   "property": "C197",
   "status": "proved",
   "theorems": [
    "Verif.Zlib.C197_lengths",
    "Verif.Zlib.C197_distances",
    "Verif.Zlib.C197_marks"
   ],
   "note": "C197_lengths, C197_distances (a finite check of 544 entries, extended to all streams); C197_marks: where built and stored tables differ."
  },
  {
   "property": "C198",
   "status": "proved",
   "theorems": [
    "Verif.Zlib.C198_calls",
    "Verif.Zlib.C198_full_window",
    "Verif.Zlib.C198_small_window_false"
   ],
   "note": "C198_full_window (window of 32768 bytes), C198_calls (any window that all distances fit in); C198_small_window_false: without this a window of 256 bytes leads to a read before the window."
  },
  {
   "property": "C199",
   "status": "proved",
   "theorems": [
    "Verif.Zlib.C199_window"
   ],
   "note": "C199_window."
  },
  {
   "property": "C200",
   "status": "proved",
   "theorems": [
    "Verif.Zlib.C200_dictionary",
    "Verif.Zlib.C200_small_window_false"
   ],
   "note": "C200_dictionary (any window that all distances fit in, hence all commands with 32768 bytes); C200_small_window_false: without this a wrong byte is copied."
  },
  {
   "property": "C201",
   "status": "proved",
   "theorems": [
    "Verif.Zlib.C201_got",
    "Verif.Zlib.C201_more",
    "Verif.Zlib.C201_bad",
    "Verif.Zlib.C201_outcome"
   ],
   "note": "C201_got, C201_more, C201_bad; C201_outcome: each input is one of the three. Heads in which all lengths of the code for lengths are zero: each bit counts as a length of zero (RFC 1951 says nothing about them; with such lengths no code of the block is in use)."
  },
  {
   "property": "C202",
   "status": "proved",
   "theorems": [
    "Verif.Zlib.C202_commands",
    "Verif.Zlib.C202_fixed",
    "Verif.Zlib.C202_outcome"
   ],
   "note": "C202_commands (tables of inflate_table), C202_fixed (tables of inffixed.h), C202_outcome: every input says something."
  },
  {
   "property": "C203",
   "status": "proved",
   "theorems": [
    "Verif.Zlib.C203_stream",
    "Verif.Zlib.C203_outcome",
    "Verif.Zlib.C203_sane",
    "Verif.Zlib.C203_output"
   ],
   "note": "C203_stream, C203_outcome, C203_sane, C203_output. That inflate_fast reads the same is C209, and that the stream may come in pieces is C213. The flush modes Z_BLOCK and Z_TREES, which the program does not use, are not modelled."
  },
  {
   "property": "C204",
   "status": "proved",
   "theorems": [
    "Verif.Zlib.C204_head",
    "Verif.Zlib.C204_unique",
    "Verif.Zlib.C204_refused"
   ],
   "note": "C204_head (both directions), C204_unique, C204_refused. That the input may come in pieces is C214; the copying of fields into a gz_header, which the program does not ask for, is not modelled."
  },
  {
   "property": "C205",
   "status": "proved",
   "theorems": [
    "Verif.Zlib.C205_tail",
    "Verif.Zlib.C205_refused"
   ],
   "note": "C205_tail, C205_refused."
  },
  {
   "property": "C206",
   "status": "proved",
   "theorems": [
    "Verif.Zlib.C206_accepts",
    "Verif.Zlib.C206_sound",
    "Verif.Zlib.C206_damaged",
    "Verif.Zlib.C206_content"
   ],
   "note": "C206_accepts, C206_sound, C206_damaged, C206_content. That inflate_fast reads the same is C209. That the file may come in pieces is C214. Only one member is read, what follows is left (Zlib_Inflater does not go on with it either)."
  },
  {
   "property": "C207",
   "status": "partial",
   "theorems": [
    "Verif.Fex.C207_copy",
    "Verif.Fex.C207_default",
    "Verif.Fex.C207_sizes_false",
    "Verif.Fex.C207_detects"
   ],
   "note": "C207_copy, C207_default, C207_detects. C207_sizes_false: a first read that does not fit into the buffer (4096 bytes when nothing is said) goes to before the buffer; no caller does this. Errors of reading are not modelled. The loop for compressed files is C215."
  },
  {
   "property": "C208",
   "status": "partial",
   "theorems": [
    "Verif.Fex.C208_size_partial",
    "Verif.Fex.C208_last_partial",
    "Verif.Fex.C208_size_false"
   ],
   "note": "C208_size_false (two members); C208_size_partial: one member with less than 2^31 bytes; C208_last_partial: what is said for several members."
  },
  {
   "property": "C209",
   "status": "proved",
   "theorems": [
    "Verif.Zlib.C209_same",
    "Verif.Zlib.C209_fixed",
    "Verif.Zlib.C209_stream",
    "Verif.Zlib.C209_follows"
   ],
   "note": "C209_same (tables of inflate_table), C209_fixed (tables of inffixed.h), C209_stream (whole streams), C209_follows (with C203). The copying in inflate_fast is in C198."
  },
  {
   "property": "C210",
   "status": "proved",
   "theorems": [
    "Verif.Zlib.C210_pieces",
    "Verif.Zlib.C210_fixed",
    "Verif.Zlib.C210_commands"
   ],
   "note": "C210_pieces (tables of inflate_table), C210_fixed (tables of inffixed.h), C210_commands (with C202). Stored blocks are C211, heads C212, whole streams C213."
  },
  {
   "property": "C211",
   "status": "proved",
   "theorems": [
    "Verif.Zlib.C211_copy",
    "Verif.Zlib.C211_stored",
    "Verif.Zlib.C211_block"
   ],
   "note": "C211_stored (as in one piece), C211_copy (the bytes), C211_block (with the specification of stored blocks of C203).  There is space for all bytes; calls that are left for want of space are in C198."
  },
  {
   "property": "C212",
   "status": "proved",
   "theorems": [
    "Verif.Zlib.C212_same",
    "Verif.Zlib.C212_got",
    "Verif.Zlib.C212_more",
    "Verif.Zlib.C212_bad"
   ],
   "note": "C212_same (as in one piece), C212_got, C212_more, C212_bad (with the specification of heads of C201)."
  },
  {
   "property": "C213",
   "status": "proved",
   "theorems": [
    "Verif.Zlib.C213_stream",
    "Verif.Zlib.C213_follows",
    "Verif.Zlib.C213_output"
   ],
   "note": "C213_stream (as in one piece; the content of a stored block counts as single bytes), C213_follows (with the specification of streams of C203), C213_output (what the calls write). Calls that are left for want of space are in C198; the flush modes Z_BLOCK and Z_TREES are not modelled."
  },
  {
   "property": "C214",
   "status": "proved",
   "theorems": [
    "Verif.Zlib.C214_head",
    "Verif.Zlib.C214_tail",
    "Verif.Zlib.C214_gunzip",
    "Verif.Zlib.C214_accepts",
    "Verif.Zlib.C214_sound",
    "Verif.Zlib.C214_damaged",
    "Verif.Zlib.C214_content"
   ],
   "note": "C214_head, C214_tail, C214_gunzip (each as in one piece), C214_accepts, C214_sound and C214_damaged (with the specification of members of C206), C214_content (what the calls write is the content, and with it the member is accepted). There is no gz_header; the heads of zlib streams, which are not allowed in this mode, are not modelled."
  },
  {
   "property": "C215",
   "status": "partial",
   "theorems": [
    "Verif.Fex.C215_read",
    "Verif.Fex.C215_open",
    "Verif.Fex.C215_endless"
   ],
   "note": "C215_read, C215_open, C215_endless, for any decoder that has the properties Serves or Endless. That inflate as modelled in C198 and C214 is such a decoder is not proved (there reading and writing are separate models); counted_serves shows that there is one. Errors of reading are not modelled."
  }
 ]
}
