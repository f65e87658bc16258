{"id": "C01", "title": "A decomposition spells the word", "statement": "Whenever analyse_brivla(w) returns (type, pieces), the concatenation of pieces is exactly normalise(w): no letter is lost, added or moved.", "quantifier": "every string w and every combination of the five options", "why_tests_cant": "The set of strings is infinite; the test lists contain a few thousand words. A lost apostrophe or hyphen in one rare combination of parts would go unnoticed.", "anchors": ["py/latkerlo_jvotci/tools.py:analyse_brivla", "py/latkerlo_jvotci/katna.py:jvokaha", "py/latkerlo_jvotci/katna.py:jvokaha_2"]}
{"id": "C02", "title": "The word type follows the last letter", "statement": "If analyse_brivla(w) returns type CMEVLA then normalise(w) ends in a consonant; if it returns any other type then it ends in a vowel. Words ending in anything else are rejected.", "quantifier": "every string w and every combination of options", "why_tests_cant": "The set of strings is infinite; the test lists contain a few thousand words.", "anchors": ["py/latkerlo_jvotci/tools.py:analyse_brivla"]}
{"id": "C03", "title": "GISMU means gismu", "statement": "analyse_brivla(w) returns GISMU if and only if normalise(w) has five letters CVCCV with a permissible middle pair or CCVCV with a permissible initial pair; the answer depends on no option but allow_mz, and the decomposition is the word itself.", "quantifier": "every string w and every combination of options", "why_tests_cant": "The set of strings is infinite; the test lists contain a few thousand words.", "anchors": ["py/latkerlo_jvotci/tools.py:analyse_brivla", "py/latkerlo_jvotci/tarmi.py:is_gismu"]}
{"id": "C04", "title": "Simple words are one piece", "statement": "When analyse_brivla(w) returns GISMU or ZIhEVLA, the decomposition is the single piece normalise(w), and that piece contains no y.", "quantifier": "every string w and every combination of options", "why_tests_cant": "The set of strings is infinite; the test lists contain a few thousand words.", "anchors": ["py/latkerlo_jvotci/tools.py:analyse_brivla", "py/latkerlo_jvotci/tools.py:check_zihevla_or_rafsi"]}
{"id": "C05", "title": "Compounds have two rafsi and sane hyphens", "statement": "When analyse_brivla(w) returns LUJVO, EXTENDED_LUJVO or CMEVLA, the decomposition has at least two pieces that are not hyphens, begins and ends with a piece that is not a hyphen, contains no empty piece and never has two hyphens in a row.", "quantifier": "every string w and every combination of options", "why_tests_cant": "The set of strings is infinite; the test lists contain a few thousand words. The pieces come from two different code paths (rafsi cutting and y-splitting) that are concatenated.", "anchors": ["py/latkerlo_jvotci/tools.py:analyse_brivla", "py/latkerlo_jvotci/katna.py:jvokaha_2", "py/latkerlo_jvotci/data.py:HYPHENS"]}
{"id": "C06", "title": "Only Lojban letters are accepted", "statement": "If analyse_brivla(w) returns, every character of normalise(w) is a Lojban vowel, a Lojban consonant, an apostrophe or y.", "quantifier": "every string w over all of Unicode and every combination of options", "why_tests_cant": "Tests use words made of Lojban letters; there are over a million other code points in any position.", "anchors": ["py/latkerlo_jvotci/tools.py:analyse_brivla", "py/latkerlo_jvotci/tools.py:check_zihevla_or_rafsi", "py/latkerlo_jvotci/katna.py:jvokaha_2"]}
{"id": "C07", "title": "No forbidden consonant pair in an accepted word", "statement": "If analyse_brivla(w) returns, every two adjacent consonants of normalise(w) form a permissible pair by the phonotactic rule (with mz allowed only under allow_mz).", "quantifier": "every string w and every combination of options", "why_tests_cant": "A pair may straddle any two pieces, hyphens included, at any place in a word of any length.", "anchors": ["py/latkerlo_jvotci/tools.py:analyse_brivla", "py/latkerlo_jvotci/tools.py:check_zihevla_or_rafsi", "py/latkerlo_jvotci/katna.py:jvokaha_2", "py/latkerlo_jvotci/data.py:VALID"]}
{"id": "C08", "title": "No banned triple in an accepted word", "statement": "If analyse_brivla(w) returns, normalise(w) does not contain ndj, ndz, ntc or nts.", "quantifier": "every string w and every combination of options", "why_tests_cant": "A triple may straddle any two or three pieces at any place in a word of any length.", "anchors": ["py/latkerlo_jvotci/tools.py:check_zihevla_or_rafsi", "py/latkerlo_jvotci/katna.py:jvokaha_2", "py/latkerlo_jvotci/data.py:BANNED_TRIPLES"]}
{"id": "C09", "title": "LUJVO are made of CLL rafsi", "statement": "If analyse_brivla(w) returns LUJVO, every piece that is not a hyphen is a rafsi of one of the eight CLL shapes with permissible consonant pairs; a five-letter rafsi occurs only as the last piece, and a four-letter consonant-final rafsi is followed by a y hyphen.", "quantifier": "every string w and every combination of options", "why_tests_cant": "The set of strings is infinite; the test lists contain a few thousand words.", "anchors": ["py/latkerlo_jvotci/katna.py:jvokaha_2", "py/latkerlo_jvotci/tarmi.py:is_valid_rafsi", "py/latkerlo_jvotci/tarmi.py:rafsi_tarmi"]}
{"id": "C10", "title": "Apostrophes separate vowels", "statement": "If analyse_brivla(w) returns, every apostrophe in normalise(w) has a vowel or y on its left and a vowel or y on its right; in particular no accepted word begins or ends with one.", "quantifier": "every string w and every combination of options", "why_tests_cant": "The set of strings is infinite; the test lists contain a few thousand words.", "anchors": ["py/latkerlo_jvotci/tools.py:analyse_brivla", "py/latkerlo_jvotci/tools.py:check_zihevla_or_rafsi"]}
{"id": "C11", "title": "The y_hyphens option is respected by LUJVO", "statement": "Under FORCE_Y no decomposition returned for any word contains an r or n hyphen; under STANDARD no LUJVO decomposition contains a 'y hyphen; a hyphen of a LUJVO is always one of y, r, n, 'y.", "quantifier": "every string w and every combination of the other options", "why_tests_cant": "The set of strings is infinite; the test lists contain a few thousand words.", "anchors": ["py/latkerlo_jvotci/katna.py:jvokaha_2", "py/latkerlo_jvotci/katna.py:jvokaha"]}
{"id": "C12", "title": "r and n hyphens stand only after CVV and CV'V rafsi", "statement": "In every decomposition returned by analyse_brivla, a piece r or n directly follows a CVV or CV'V rafsi; n is followed by a piece starting with r, and r by a piece starting with a consonant other than r.", "quantifier": "every string w and every combination of options", "why_tests_cant": "The set of strings is infinite; the test lists contain a few thousand words.", "anchors": ["py/latkerlo_jvotci/katna.py:jvokaha_2"]}
{"id": "C13", "title": "get_rafsi_indices locates the rafsi", "statement": "For every list of pieces, slicing the concatenated word at the index pairs of get_rafsi_indices gives exactly the non-hyphen pieces, in order; the ranges are increasing, disjoint and inside the word.", "quantifier": "every list of strings", "why_tests_cant": "Lists of any length with hyphens in any place.", "anchors": ["py/latkerlo_jvotci/tools.py:get_rafsi_indices"]}
{"id": "C14", "title": "Every call terminates", "statement": "analyse_brivla, is_brivla, get_lujvo, get_veljvo and score_lujvo terminate: the mutual recursion analyse_brivla / check_zihevla_or_rafsi / is_slinkuhi / jvokaha / get_lujvo_from_list never runs forever, its depth is bounded by the length of the input, and the results satisfy the recursive equations of the program.", "quantifier": "every input and every combination of options", "why_tests_cant": "A test that passes says nothing about an input that recurses forever.", "anchors": ["py/latkerlo_jvotci/tools.py:analyse_brivla", "py/latkerlo_jvotci/tools.py:check_zihevla_or_rafsi", "py/latkerlo_jvotci/tools.py:is_slinkuhi", "py/latkerlo_jvotci/katna.py:jvokaha", "py/latkerlo_jvotci/jvozba.py:get_lujvo_from_list"]}
{"id": "C15", "title": "analyse_brivla raises only NotBrivlaError", "statement": "For every string analyse_brivla either returns or raises NotBrivlaError, as documented, so that is_brivla always returns a bool.", "quantifier": "every string w and every combination of options", "why_tests_cant": "The inputs that break it are rare combinations (empty parts after y, vowel runs that do not split).", "anchors": ["py/latkerlo_jvotci/tools.py:analyse_brivla", "py/latkerlo_jvotci/tools.py:is_brivla"]}
{"id": "C16", "title": "is_brivla is analyse_brivla without cmevla", "statement": "is_brivla(w) is True exactly when analyse_brivla(w) returns a type other than CMEVLA, False exactly when it returns CMEVLA or raises NotBrivlaError; a word for which it is True ends in a vowel and is made of Lojban letters.", "quantifier": "every string w and every combination of options", "why_tests_cant": "The set of strings is infinite; the test lists contain a few thousand words.", "anchors": ["py/latkerlo_jvotci/tools.py:is_brivla", "py/latkerlo_jvotci/tools.py:analyse_brivla"]}
{"id": "C17", "title": "Spelling variants do not matter", "statement": "analyse_brivla, is_brivla, get_veljvo give the same result for two spellings of a word that differ by upper case of ASCII letters, h for apostrophe, commas, or one initial full stop; the same holds component by component for get_lujvo.", "quantifier": "every string w, every set of positions where the spelling is varied, every combination of options", "why_tests_cant": "Variants can be combined at any set of positions.", "anchors": ["py/latkerlo_jvotci/tools.py:normalise", "py/latkerlo_jvotci/tools.py:analyse_brivla", "py/latkerlo_jvotci/jvozba.py:process_tanru"]}
{"id": "C18", "title": "A tanru string and the list of its words are the same input", "statement": "get_lujvo of a string equals get_lujvo of the list of its words, whatever whitespace separates, precedes or follows them.", "quantifier": "every list of non-empty whitespace-free words, every choice of whitespace runs, every combination of options", "why_tests_cant": "Separators can be any runs of any whitespace characters.", "anchors": ["py/latkerlo_jvotci/jvozba.py:process_tanru", "py/latkerlo_jvotci/jvozba.py:get_lujvo"]}
{"id": "C19", "title": "glides has no effect without experimental rafsi", "statement": "With exp_rafsi_shapes False, analyse_brivla returns the same value for glides True and False, as the README says, or raises an exception in both cases (the same one, unless the one for False is the IndexError of C15); get_lujvo and get_lujvo_with_analytics give the same result or the same exception.", "quantifier": "every string w, every tanru and every combination of the other options", "why_tests_cant": "The set of strings is infinite; the test lists contain a few thousand words.", "anchors": ["py/latkerlo_jvotci/tools.py:analyse_brivla", "py/latkerlo_jvotci/jvozba.py:get_lujvo_from_list", "README.md:glides"]}
{"id": "C20", "title": "Experimental rafsi only extend", "statement": "exp_rafsi_shapes has no effect on analyse_brivla for words without y, and a word accepted without it is accepted with it, with the same type and decomposition.", "quantifier": "every string w and every combination of the other options", "why_tests_cant": "The set of strings is infinite; the test lists contain a few thousand words.", "anchors": ["py/latkerlo_jvotci/tools.py:analyse_brivla", "py/latkerlo_jvotci/tools.py:check_zihevla_or_rafsi"]}
{"id": "C21", "title": "get_lujvo ends in the right kind of letter", "statement": "A lujvo returned by get_lujvo ends in a vowel; with generate_cmevla=True it ends in a consonant.", "quantifier": "every tanru and every combination of options", "why_tests_cant": "Every choice of rafsi for every list of words.", "anchors": ["py/latkerlo_jvotci/jvozba.py:get_lujvo_from_list"]}
{"id": "C22", "title": "Index pairs of get_lujvo_with_analytics partition the lujvo", "statement": "get_lujvo_with_analytics returns one index pair per component; the ranges are increasing, disjoint, non-empty and inside the word, the first starts at 0, the last ends at the end, and between two consecutive ranges lies one of the hyphens (nothing, y, r, n, 'y, y', 'y').", "quantifier": "every tanru and every combination of options", "why_tests_cant": "Every choice of rafsi for every list of words of any length.", "anchors": ["py/latkerlo_jvotci/jvozba.py:get_lujvo_with_analytics", "py/latkerlo_jvotci/jvozba.py:combine"]}
{"id": "C23", "title": "Each component is represented by one of its rafsi", "statement": "In the result of get_lujvo_with_analytics the slice at the i-th index pair is a rafsi of the i-th component: a rafsi listed for the word, the word without its final vowel, or the word; and for a component -x- or x- it is x.", "quantifier": "every tanru and every combination of options", "why_tests_cant": "Every choice of rafsi for every list of words of any length.", "anchors": ["py/latkerlo_jvotci/jvozba.py:get_lujvo_with_analytics", "py/latkerlo_jvotci/jvozba.py:get_rafsi_list_list", "py/latkerlo_jvotci/jvozba.py:get_rafsi_for_rafsi"]}
{"id": "C24", "title": "The score is the sum over the pieces", "statement": "The score returned by get_lujvo_with_analytics is the published sum over the pieces of the lujvo: 1000 per letter, 100 per y, minus ten times the shape score of each rafsi, minus the number of vowels; minus the tie-break of one point where it applies.", "quantifier": "every tanru and every combination of options", "why_tests_cant": "Every choice of rafsi for every list of words of any length.", "anchors": ["py/latkerlo_jvotci/jvozba.py:score", "py/latkerlo_jvotci/jvozba.py:combine", "py/latkerlo_jvotci/jvozba.py:tiebreak"]}
{"id": "C25", "title": "get_lujvo returns a lowest-scoring lujvo", "statement": "No way of choosing a rafsi form for each component that joins into a legal lujvo scores lower than the lujvo get_lujvo returns: the search, which keeps one candidate per last letter, loses nothing against trying all combinations.", "quantifier": "every tanru, every choice of rafsi form per component, every combination of options", "why_tests_cant": "The number of combinations is exponential in the number of components.", "anchors": ["py/latkerlo_jvotci/jvozba.py:get_lujvo_from_list", "py/latkerlo_jvotci/jvozba.py:combine", "py/latkerlo_jvotci/jvozba.py:update_current_best"]}
{"id": "C26", "title": "get_lujvo fails only when nothing fits", "statement": "If get_lujvo raises NoLujvoFoundError after building the rafsi lists, then no choice of rafsi forms joins into a legal lujvo ending in the right kind of letter, or the best one is a slinku'i.", "quantifier": "every tanru and every combination of options", "why_tests_cant": "The number of combinations is exponential in the number of components.", "anchors": ["py/latkerlo_jvotci/jvozba.py:get_lujvo_from_list", "py/latkerlo_jvotci/jvozba.py:combine"]}
{"id": "C27", "title": "get_lujvo output respects the consonant rules at the joints", "statement": "In a lujvo returned by get_lujvo two consonants that meet at a joint of two components form a permissible pair, and no banned triple starts at the last letter of a component.", "quantifier": "every tanru and every combination of options", "why_tests_cant": "Every choice of rafsi for every list of words of any length.", "anchors": ["py/latkerlo_jvotci/jvozba.py:combine"]}
{"id": "C28", "title": "get_lujvo's internal assertion never fails", "statement": "get_lujvo and get_lujvo_with_analytics never raise AssertionError: a rafsi with an unknown shape never reaches get_rafsi_for_rafsi.", "quantifier": "every tanru and every combination of options", "why_tests_cant": "Depends on every entry of the 2021-word rafsi table and on every user-supplied rafsi.", "anchors": ["py/latkerlo_jvotci/jvozba.py:get_rafsi_for_rafsi", "py/latkerlo_jvotci/rafsi.py:RAFSI_LIST"]}
{"id": "C29", "title": "The rafsi table is consistent", "statement": "Every listed rafsi has one of the shapes CVC, CVV, CV'V, CCV, belongs to exactly one word, and looking it up finds that word.", "quantifier": "every entry of the table", "why_tests_cant": "A finite but large table (2021 words); stated for all entries.", "anchors": ["py/latkerlo_jvotci/rafsi.py:RAFSI_LIST", "py/latkerlo_jvotci/katna.py:search_selrafsi_from_rafsi"]}
{"id": "C30", "title": "get_veljvo lists one component per rafsi", "statement": "get_veljvo(w) raises DecompositionError exactly when analyse_brivla(w) returns GISMU or ZIhEVLA (or raises it itself); when it returns, the list has exactly one entry for each non-hyphen piece; if the import of is_slinkuhi is in place it returns for every word accepted as a LUJVO, EXTENDED_LUJVO or CMEVLA.", "quantifier": "every string w and every combination of options", "why_tests_cant": "The set of strings is infinite; the test lists contain a few thousand words.", "anchors": ["py/latkerlo_jvotci/katna.py:get_veljvo", "py/latkerlo_jvotci/katna.py:selrafsi_list_from_rafsi_list"]}
{"id": "C31", "title": "The consonant tables are the phonotactic rules", "statement": "The table of permissible pairs is exactly the set given by the rule (two different consonants, same voicing unless one is l m n r, not both of c j s z, not cx kx xc xk mz); the initial pairs are a subset; the extra zi'evla initials are a subset of the initials.", "quantifier": "every pair of characters", "why_tests_cant": "The tables have 179 and 48 hand-written entries; the absent entries matter as much as the present ones.", "anchors": ["py/latkerlo_jvotci/data.py:VALID", "py/latkerlo_jvotci/data.py:INITIAL", "py/latkerlo_jvotci/data.py:ZIhEVLA_INITIAL"]}
{"id": "C32", "title": "split_vowel_cluster is sound and keeps the letters", "statement": "If a vowel run is split into syllables, the syllables concatenate to it, each is a permissible vowel or diphthong, all but the first start with an on-glide, and splitting raises only DecompositionError.", "quantifier": "every string", "why_tests_cant": "Vowel runs have any length.", "anchors": ["py/latkerlo_jvotci/tarmi.py:split_vowel_cluster", "py/latkerlo_jvotci/data.py:START_VOWEL_CLUSTERS", "py/latkerlo_jvotci/data.py:FOLLOW_VOWEL_CLUSTERS"]}
{"id": "C33", "title": "SettingsIterator enumerates every combination once", "statement": "Iterating over SettingsIterator yields every combination of the given option lists, each exactly once, and nothing else.", "quantifier": "every list of option lists", "why_tests_cant": "Any number of options with any number of values.", "anchors": ["py/latkerlo_jvotci/tarmi.py:SettingsIterator"]}
{"id": "C34", "title": "At the pinned commit get_lujvo cannot return a brivla", "statement": "Because jvozba.py calls is_slinkuhi without importing it, get_lujvo with generate_cmevla=False never returns a value for any tanru, and analyse_brivla never returns LUJVO; adding the import changes no call that does not raise NameError.", "quantifier": "every tanru, every string, every combination of options", "why_tests_cant": "Tests can show that one call fails, not that none succeeds, nor that the repair changes nothing else.", "anchors": ["py/latkerlo_jvotci/jvozba.py:get_lujvo_from_list", "py/latkerlo_jvotci/jvozba.py:import of tools"]}
{"id": "C35", "title": "score_lujvo and get_lujvo_with_analytics agree", "statement": "score_lujvo(get_lujvo(t)) equals the score that get_lujvo_with_analytics(t) reports.", "quantifier": "every tanru and every combination of options", "why_tests_cant": "Every choice of rafsi for every list of words.", "anchors": ["py/latkerlo_jvotci/katna.py:score_lujvo", "py/latkerlo_jvotci/jvozba.py:get_lujvo_with_analytics", "py/latkerlo_jvotci/jvozba.py:score"]}
{"id": "C36", "title": "Under CLUSTER every brivla has a consonant cluster", "statement": "With consonants=CLUSTER a word accepted as a brivla contains two consonants that are adjacent or separated by a single y.", "quantifier": "every string w and every combination of the other options", "why_tests_cant": "The set of strings is infinite; the test lists contain a few thousand words.", "anchors": ["py/latkerlo_jvotci/tools.py:analyse_brivla", "README.md:consonants"]}
{"id": "C37", "title": "Decompositions into rafsi are unique", "statement": "If a string can be written as a sequence of CLL rafsi and hyphens obeying the local rules, the rafsi cutter finds exactly that sequence; no string has two such readings.", "quantifier": "every sequence of rafsi and hyphens", "why_tests_cant": "Sequences have any length.", "anchors": ["py/latkerlo_jvotci/katna.py:jvokaha_2"]}
{"id": "C38", "title": "A made lujvo is read back as made", "statement": "A lujvo returned by get_lujvo is accepted by analyse_brivla under the same options, and the index pairs of its decomposition are those reported by get_lujvo_with_analytics.", "quantifier": "every tanru and every combination of options", "why_tests_cant": "Every choice of rafsi for every list of words of any length.", "anchors": ["py/latkerlo_jvotci/jvozba.py:get_lujvo_with_analytics", "py/latkerlo_jvotci/tools.py:analyse_brivla"]}
{"id": "C39", "title": "A ZIhEVLA is shaped like one", "statement": "A word classified ZIhEVLA has at least four letters and two syllables, consists of vowels, consonants and apostrophes between vowels, contains a consonant cluster, has at most one consonant before its first cluster, and its first cluster, if initial, is a permissible initial.", "quantifier": "every string w and every combination of options", "why_tests_cant": "The set of strings is infinite; the test lists contain a few thousand words.", "anchors": ["py/latkerlo_jvotci/tools.py:check_zihevla_or_rafsi"]}
{"id": "C40", "title": "normalise is a normal form", "statement": "normalise(normalise(w)) = normalise(w), so a word can be normalised any number of times.", "quantifier": "every non-empty string w", "why_tests_cant": "The set of strings is infinite; the test lists contain a few thousand words.", "anchors": ["py/latkerlo_jvotci/tools.py:normalise"]}
{"id": "C41", "title": "LUJVO means: the right rafsi with the right hyphens", "statement": "analyse_brivla(w) returns LUJVO with the pieces ps exactly when w is read as the pieces joined and the pieces obey the rules of CLL 4.11: gismu rafsi, y exactly where two rafsi cannot meet or where the word would fall apart, r or n (or 'y under FORCE_Y) after an initial CVV except before a single CCV, no word that falls apart (tosmabru), a vowel at the end, and under CLUSTER a cluster; further r and n after CVV are tolerated.", "quantifier": "every string w of fewer than 10^95 characters, every sequence of pieces, every combination of options", "why_tests_cant": "Sequences of rafsi have any length, and the code decides by building a lujvo and comparing.", "anchors": ["py/latkerlo_jvotci/tools.py:analyse_brivla", "py/latkerlo_jvotci/katna.py:jvokaha", "py/latkerlo_jvotci/katna.py:compare_lujvo_pieces", "py/latkerlo_jvotci/jvozba.py:get_lujvo_from_list"]}
{"id": "C42", "title": "Cmevla made of rafsi", "statement": "A word that is read as rafsi with y exactly where two rafsi cannot meet, ending in a consonant, is accepted by analyse_brivla as a CMEVLA with these pieces; and a CMEVLA without y is of this form.", "quantifier": "every string w, every sequence of pieces, every combination of options", "why_tests_cant": "Sequences of rafsi have any length, and the code decides by building a lujvo and comparing.", "anchors": ["py/latkerlo_jvotci/tools.py:analyse_brivla", "py/latkerlo_jvotci/katna.py:jvokaha", "py/latkerlo_jvotci/jvozba.py:get_lujvo_from_list"]}
{"id": "C43", "title": "A made lujvo names its tanru", "statement": "get_veljvo of a lujvo returned by get_lujvo returns the words it was made of (in their normal spelling).", "quantifier": "every tanru of listed words and every combination of options", "why_tests_cant": "The best rafsi are chosen anew for every list of words, of any length, and the result is cut up and looked up again.", "anchors": ["py/latkerlo_jvotci/jvozba.py:get_lujvo", "py/latkerlo_jvotci/katna.py:get_veljvo", "py/latkerlo_jvotci/rafsi.py:RAFSI_LIST"]}
{"id": "C44", "title": "score_lujvo is the sum over the decomposition", "statement": "When score_lujvo(w) returns, w is a LUJVO, EXTENDED_LUJVO or CMEVLA and the score is 1000 per letter, plus 100 per y inside a longer hyphen ('y, y', 'y'), minus ten times the shape score of each rafsi, minus the number of vowels, minus one if w as typed is CVV followed by CCV, CCVC, CVC or CVCC; two spellings of a word differ by at most one point.", "quantifier": "every string w and every combination of options", "why_tests_cant": "The set of strings is infinite; the test lists contain a few thousand words.", "anchors": ["py/latkerlo_jvotci/katna.py:score_lujvo", "py/latkerlo_jvotci/jvozba.py:score", "py/latkerlo_jvotci/jvozba.py:tiebreak"]}
{"id": "C45", "title": "Which words are zi'evla", "statement": "analyse_brivla(w) returns ZIhEVLA exactly for words that sound right run by run (initial and middle consonant clusters, permissible pairs, vowels divided into syllables, apostrophes between vowels), end in a vowel, have two syllables or more and a cluster with at most one consonant before it, are neither gismu nor lujvo, do not leave a brivla when letters without a cluster ending in a vowel are cut off in front of a consonant or on-glide, and do not make a lujvo with a preceding `to` when they begin with a consonant.", "quantifier": "every string w (shorter than 10^94) and every combination of options", "why_tests_cant": "Zi'evla have any length, with any number of clusters and syllables; the code scans with a regular expression and calls itself on tails.", "anchors": ["py/latkerlo_jvotci/tools.py:analyse_brivla", "py/latkerlo_jvotci/tools.py:check_zihevla_or_rafsi", "py/latkerlo_jvotci/tarmi.py:is_zihevla_initial_cluster", "py/latkerlo_jvotci/tarmi.py:is_zihevla_middle_cluster", "py/latkerlo_jvotci/tarmi.py:split_vowel_cluster"]}
{"id": "C46", "title": "A brivla does not fall apart into cmavo and brivla", "statement": "If w is a brivla and something that ends in a vowel and has no two adjacent consonants is cut off its beginning, and the rest begins with a consonant or an on-glide, then the rest is not a brivla: in running speech w cannot be heard as cmavo and brivla.", "quantifier": "every string w, every way to cut it and every combination of options", "why_tests_cant": "Words of any length, cut anywhere; the tests that ensure it (tosmabru, slinku'i, falling apart) are in different functions that only work together.", "anchors": ["py/latkerlo_jvotci/tools.py:analyse_brivla", "py/latkerlo_jvotci/tools.py:check_zihevla_or_rafsi", "py/latkerlo_jvotci/tools.py:is_slinkuhi", "py/latkerlo_jvotci/jvozba.py:combine", "py/latkerlo_jvotci/jvozba.py:get_lujvo_from_list"]}
{"id": "C47", "title": "Which words are extended lujvo", "statement": "analyse_brivla(w) returns EXTENDED_LUJVO with the pieces ps exactly when w, cut at its y, consists of at least two parts each of which is a CVC rafsi, a sequence of CLL rafsi, a zi'evla (whole or without its last vowel) or, if the option is set, an experimental rafsi, where y' stands before a vowel and y before a consonant or on-glide, 'y after a vowel, nothing falls off the first part (tosmabru) or in front of 'y, the word has a consonant cluster (or what the consonants option asks for), ends in a vowel, is not a lujvo, does not begin CCV'y, and does not make a lujvo with a preceding `to`; ps are the pieces of the parts with the hyphens between them.", "quantifier": "every string w (shorter than 10^93), every list of pieces and every combination of options", "why_tests_cant": "Any number of parts of any length; the loop carries state from part to part and calls the analyser on pieces of the word.", "anchors": ["py/latkerlo_jvotci/tools.py:analyse_brivla", "py/latkerlo_jvotci/tools.py:check_zihevla_or_rafsi", "py/latkerlo_jvotci/katna.py:jvokaha", "py/latkerlo_jvotci/katna.py:jvokaha_2"]}
{"id": "C48", "title": "Which words are brivla", "statement": "is_brivla(w) is True exactly when w is a gismu, a lujvo (C41), a zi'evla (C45) or an extended lujvo (C47), each described without reference to the code that finds it.", "quantifier": "every string w (shorter than 10^93) and every combination of options", "why_tests_cant": "The set of strings is infinite; the test lists contain a few thousand words.", "anchors": ["py/latkerlo_jvotci/tools.py:is_brivla", "py/latkerlo_jvotci/tools.py:analyse_brivla"]}
{"id": "C49", "title": "Which words are cmevla", "statement": "analyse_brivla(w) returns CMEVLA and pieces ps exactly when ps are the pieces of a cmevla made of rafsi (C42), or w cut at its y consists of parts, each a rafsi or series of rafsi, a zi'evla without its last vowel or an experimental rafsi, in allowed positions with the right hyphens, and ps are their pieces; except that on some words ending in r after two vowels the call raises IndexError.", "quantifier": "every string w (shorter than 10^93) and every combination of options", "why_tests_cant": "The set of strings is infinite; the test lists contain a few thousand words.", "anchors": ["py/latkerlo_jvotci/tools.py:analyse_brivla", "py/latkerlo_jvotci/katna.py:jvokaha", "py/latkerlo_jvotci/tools.py:is_slinkuhi"]}
{"id": "C50", "title": "The command-line loops", "statement": "In a session of jvozba.py or katna.py run as a program, each option has the value that the last of its words in the commands so far (lines beginning with /) stands for, or the default, and the prompt shows these values; a command prints nothing; for a tanru or word the loop prints what get_lujvo_with_analytics, or analyse_brivla and get_veljvo, return with these options, or the exception if it is one of those the loop catches; an empty line ends the session; nothing ends it with an exception but IndexError (for jvozba.py also NotBrivlaError, DecompositionError and InvalidClusterError, and at the pinned commit NameError).", "quantifier": "every sequence of lines typed", "why_tests_cant": "A session is a history of any length; a test types a few lines.", "anchors": ["py/latkerlo_jvotci/jvozba.py:__main__", "py/latkerlo_jvotci/katna.py:__main__"]}
{"id": "C51", "title": "A zi'evla cannot be read as rafsi", "statement": "If analyse_brivla(w) returns ZIhEVLA, and allow_mz is off or there is no mz in w, no sequence of CLL rafsi and hyphens that obeys the rules about neighbours spells w. With allow_mz on there are such words with mz.", "quantifier": "every string w, every sequence of rafsi and hyphens, every combination of the other options", "why_tests_cant": "Words and sequences of any length; the code only tests that w is no lujvo, that no tail of it is a brivla and that it is no slinku'i.", "anchors": ["py/latkerlo_jvotci/tools.py:analyse_brivla", "py/latkerlo_jvotci/tools.py:check_zihevla_or_rafsi", "py/latkerlo_jvotci/katna.py:jvokaha_2"]}
{"id": "C52", "title": "Relaxing the options only extends", "statement": "If analyse_brivla accepts w as a brivla, it returns the same type and the same pieces when options are relaxed: y_hyphens from STANDARD to ALLOW_Y, consonants from CLUSTER to TWO_CONSONANTS to ONE_CONSONANT, exp_rafsi_shapes and glides from off to on. The same holds for cmevla, except that when STANDARD is relaxed to ALLOW_Y the call can raise IndexError on words that end in r after two vowels. FORCE_Y is no such relaxation: it changes types and loses words.", "quantifier": "every string w (shorter than 10^91) and every pair of combinations of options (with the same allow_mz) one of which relaxes the other", "why_tests_cant": "A test tries some words with some pairs of options; the options interact (zi'evla are what no lujvo is, so more lujvo could mean fewer zi'evla).", "anchors": ["py/latkerlo_jvotci/tools.py:analyse_brivla", "py/latkerlo_jvotci/tools.py:is_brivla", "py/latkerlo_jvotci/katna.py:jvokaha", "py/latkerlo_jvotci/tools.py:check_zihevla_or_rafsi"]}
{"id": "C53", "title": "A lujvo is found when there is one", "statement": "If some choice of rafsi and hyphens for the components of a tanru makes a word that get_lujvo could return, get_lujvo returns a word (by C25 the best) instead of raising an exception. For components that are words or CLL rafsi this holds (unless allow_mz is set and a word that is not a gismu has mz in it) without exception. In general it fails in two ways: the best word is a slinku'i, and the others are not tried (NoLujvoFoundError); or a component of the form x-, not under FORCE_Y, ends in r after two vowels (IndexError).", "quantifier": "every tanru of components in Lojban letters, with or without dashes, every combination of options, brivla and cmevla", "why_tests_cant": "The number of choices grows exponentially with the number of components, and the search keeps only one candidate per last letter and state; a test knows a few tanru that have a lujvo.", "anchors": ["py/latkerlo_jvotci/jvozba.py:get_lujvo", "py/latkerlo_jvotci/jvozba.py:get_lujvo_with_analytics", "py/latkerlo_jvotci/jvozba.py:combine", "py/latkerlo_jvotci/jvozba.py:get_rafsi_list_list"]}
{"id": "C54", "title": "Gismu and zi'evla always make a lujvo", "statement": "For every tanru of two or more gismu (any words of the form CVCCV or CCVCV with permissible clusters, listed or not), get_lujvo returns a lujvo, and a cmevla when asked for one, under every combination of options. The same holds for words that analyse_brivla calls gismu or zi'evla under these options, except that the last word of a cmevla must be a gismu and that with allow_mz the zi'evla must not have mz in them.", "quantifier": "every list of two or more gismu (fewer than 10^95) and every combination of options; every list of two or more gismu and zi'evla (fewer than 10^89 letters) and every combination of options", "why_tests_cant": "There are thousands of gismu-shaped words and every length of tanru; the tests list a few pairs.", "anchors": ["py/latkerlo_jvotci/jvozba.py:get_lujvo", "py/latkerlo_jvotci/jvozba.py:get_lujvo_with_analytics"]}
{"id": "C55", "title": "Relaxed options never make the lujvo worse", "statement": "If get_lujvo returns a word under some options, that word is still a candidate with the same score when options are relaxed (ALLOW_Y instead of STANDARD, experimental rafsi, fewer consonants required, glides as consonants), and get_lujvo then returns a word with the same score or a lower one. For components that are words or CLL rafsi there is no exception (unless allow_mz is set and a word that is not a gismu has mz in it); in general the only exception is that the best of the candidates is a slinku'i (see C53), and then NoLujvoFoundError is raised.", "quantifier": "every tanru of components in Lojban letters, with or without dashes, every pair of option sets of which the second relaxes the first, brivla and cmevla", "why_tests_cant": "A relaxed option changes which candidates survive each stage of the search; a test compares a few tanru under a few options.", "anchors": ["py/latkerlo_jvotci/jvozba.py:get_lujvo", "py/latkerlo_jvotci/jvozba.py:get_lujvo_with_analytics", "py/latkerlo_jvotci/jvozba.py:combine", "py/latkerlo_jvotci/jvozba.py:get_rafsi_list_list"]}
{"id": "C56", "title": "allow_mz only concerns words in which m and z meet", "statement": "A word in which neither mz nor myz occurs is accepted by analyse_brivla with allow_mz exactly if it is accepted without, with the same type and the same pieces. Allowing mz loses no brivla: a word accepted without the option is accepted with it and has the same pieces; its type is the same, except that a lujvo in which a y separates m from z can become an extended lujvo, since the y is no longer needed. (This is not so for cmevla: some in which a y separates m from z are rejected with the option.)", "quantifier": "every word, every setting of the other options", "why_tests_cant": "The option is passed through the whole call graph (pairs, rafsi, hyphens, tosmabru and slinku'i tests); a test looks at a few words.", "anchors": ["py/latkerlo_jvotci/tools.py:analyse_brivla", "py/latkerlo_jvotci/tools.py:is_brivla", "py/latkerlo_jvotci/katna.py:jvokaha", "py/latkerlo_jvotci/katna.py:jvokaha_2", "py/latkerlo_jvotci/tools.py:is_slinkuhi", "py/latkerlo_jvotci/tools.py:check_zihevla_or_rafsi", "py/latkerlo_jvotci/tarmi.py:is_gismu"]}
{"id": "C57", "title": "allow_mz never makes the lujvo worse", "statement": "If get_lujvo returns a word without allow_mz, that word is still a candidate with the same score with the option, and get_lujvo then returns a word with the same score or a lower one. For components that are words or CLL rafsi there is no exception; in general the only exception is that the best of the candidates is a slinku'i (see C53), and then NoLujvoFoundError is raised.", "quantifier": "every tanru of components in Lojban letters, with or without dashes, every setting of the other options, brivla and cmevla", "why_tests_cant": "The option changes which rafsi a component has and which joints need a hyphen; a test compares a few tanru.", "anchors": ["py/latkerlo_jvotci/jvozba.py:get_lujvo", "py/latkerlo_jvotci/jvozba.py:get_lujvo_with_analytics", "py/latkerlo_jvotci/jvozba.py:combine", "py/latkerlo_jvotci/jvozba.py:get_rafsi_list_list"]}
{"id": "C58", "title": "How many consonants a brivla has", "statement": "Unless consonants is ONE_CONSONANT, a word accepted as a brivla has at least two consonants; with ONE_CONSONANT at least one, not at the beginning of the word. Only with exp_rafsi_shapes, glides and a setting other than CLUSTER do rafsi that begin with an on-glide count instead.", "quantifier": "every string w (shorter than 10^93) and every combination of options", "why_tests_cant": "Words of any length; the code counts parts, rafsi and shapes in three variables and never counts the consonants themselves.", "anchors": ["py/latkerlo_jvotci/tools.py:analyse_brivla", "README.md:consonants", "README.md:glides"]}
{"id": "C59", "title": "What the rafsi dictionary script puts into the table", "statement": "For an export of the dictionary with one entry per word, make_rafsi_list.py lists for a word every rafsi assigned to it (by a rafsi tag of an entry for a gismu or cmavo, or an experimental one that does not share four letters with a gismu; or by the list of exceptions), and besides these only rafsi that the notes of such an entry mention between hyphens and that no word is assigned; a rafsi mentioned in the notes, set off from other mentions and not assigned, is listed. Every gismu is listed, every other word has a rafsi; no word and no rafsi of a word is repeated; rafsi are in the order of the scores for their shapes; and two runs differ at most in the order of rafsi with the same score.", "quantifier": "every export (any list of entries with distinct words, any rafsi, any notes) and every order in which Python may list its sets", "why_tests_cant": "The export has thousands of entries with free-text notes, changes every day, and sets are listed in a different order in every run; there are no tests of the script.", "anchors": ["make_rafsi_list.py:rafsi_list", "make_rafsi_list.py:EXCEPTIONS", "make_rafsi_list.py:GIMSTE"]}
{"id": "C60", "title": "Taking a lujvo apart and making it again never makes it worse", "statement": "For every word that analyse_brivla calls a lujvo, get_veljvo returns a list of which get_lujvo (with the same options) makes a lujvo, and the score by which get_lujvo searches is for the new word no higher than for the old one (its score_lujvo and 100 for every y hyphen, which score_lujvo counts as any other letter). The same holds for cmevla made of CLL rafsi and get_lujvo with generate_cmevla.", "quantifier": "every option, every word that is a lujvo or a cmevla made of CLL rafsi", "why_tests_cant": "The set of strings is infinite; the test lists contain a few thousand words. It concerns the analysis, the rafsi table and the search together, with rafsi that no word has.", "anchors": ["py/latkerlo_jvotci/katna.py:get_veljvo", "py/latkerlo_jvotci/katna.py:selrafsi_list_from_rafsi_list", "py/latkerlo_jvotci/katna.py:score_lujvo", "py/latkerlo_jvotci/jvozba.py:get_lujvo_with_analytics", "py/latkerlo_jvotci/katna.py:search_selrafsi_from_rafsi"]}
{"id": "C61", "title": "Making a lujvo again settles after one round", "statement": "The word that get_lujvo makes of the veljvo of a lujvo has the same veljvo itself (and so get_lujvo makes of it the same word again), except where one of six listed words is among the components: broda, brode and majgo, whose first four letters belong to another gismu, and the zi'evla je'ebzi, mu'umgu and va'arga. The same holds for cmevla made of CLL rafsi.", "quantifier": "every option, every lujvo or cmevla made of CLL rafsi", "why_tests_cant": "The set of strings is infinite; the test lists contain a few thousand words. A word that comes back changed in the second round is found only by chance.", "anchors": ["py/latkerlo_jvotci/katna.py:get_veljvo", "py/latkerlo_jvotci/katna.py:selrafsi_list_from_rafsi_list", "py/latkerlo_jvotci/katna.py:search_selrafsi_from_rafsi", "py/latkerlo_jvotci/jvozba.py:get_lujvo_with_analytics"]}
{"id": "C62", "title": "Different tanru have different lujvo", "statement": "If get_lujvo returns the same word for two tanru (under the same options), the two tanru are the same words but for their spelling.", "quantifier": "every two tanru of listed gismu and cmavo and of zi'evla (whole or without their last vowel), every combination of options", "why_tests_cant": "Pairs of lists of words of any length; the rafsi are chosen by a search.", "anchors": ["py/latkerlo_jvotci/jvozba.py:get_lujvo", "py/latkerlo_jvotci/rafsi.py:RAFSI_LIST"]}
{"id": "C63", "title": "A lujvo is never longer than its tanru", "statement": "The lujvo or cmevla that get_lujvo returns for a tanru of gismu is not longer than the gismu written together without spaces. For gismu and cmavo it has at most five letters (apostrophes counted) for each of them, and one more only under FORCE_Y.", "quantifier": "every list of gismu (listed or not) and cmavo, every combination of options, brivla and cmevla", "why_tests_cant": "Lists of any length; the search minimises a score, in which other things count besides the length.", "anchors": ["py/latkerlo_jvotci/jvozba.py:get_lujvo", "py/latkerlo_jvotci/jvozba.py:get_lujvo_from_list", "py/latkerlo_jvotci/jvozba.py:score"]}
{"id": "C64", "title": "The experimental rafsi option adds the stems with cmavo it promises", "statement": "With exp_rafsi, a gismu without its last vowel, y (y' before a vowel that is no on-glide) and any string shaped like a cmavo that is not CVV or CV'V is an extended lujvo of exactly these three pieces. Without the option no such word is accepted. CVV and CV'V are ordinary rafsi: such a word is a lujvo with and without the option.", "quantifier": "every gismu stem, every string shaped like a cmavo (any number of vowel groups), every combination of the other options", "why_tests_cant": "Cmavo shapes have no bound on their length; the piece goes through the checks for a lujvo and for a zi'evla before it counts as an experimental rafsi.", "anchors": ["py/latkerlo_jvotci/tools.py:analyse_brivla", "py/latkerlo_jvotci/tools.py:check_zihevla_or_rafsi"]}
{"id": "C65", "title": "FORCE_Y makes zi'evla of the words with r and n", "statement": "With y_hyphens=FORCE_Y analyse_brivla finds no lujvo with an r or n hyphen. A word without y that is a lujvo with r or n behind its first rafsi under STANDARD or ALLOW_Y is one whole zi'evla under FORCE_Y.", "quantifier": "every lujvo without y (and without mz before a consonant) of any number of rafsi, every combination of the other options", "why_tests_cant": "Lujvo of any length; being a zi'evla is a long list of conditions (syllables, clusters, no other reading, no cut, no slinku'i).", "anchors": ["py/latkerlo_jvotci/tools.py:analyse_brivla", "py/latkerlo_jvotci/katna.py:jvokaha", "py/latkerlo_jvotci/tools.py:check_zihevla_or_rafsi"]}
{"id": "C66", "title": "What get_veljvo shows for each piece", "statement": "get_veljvo lists every CLL rafsi as the gismu or cmavo it stands for; if there is none, a gismu as it is, a gismu without its last vowel with a dash behind it, and any other rafsi between dashes; a zi'evla as it is where it is whole, and with a dash behind it where its last vowel is missing; an experimental rafsi between dashes. Nothing is missing, nothing is listed twice, and the order is that of the word.", "quantifier": "every word (shorter than 10^92 letters) for which get_veljvo returns, every combination of the options", "why_tests_cant": "How a piece is shown depends on its neighbours and on whether it, or it with an a behind it, is a brivla, which is decided by the whole analyser: infinitely many zi'evla.", "anchors": ["py/latkerlo_jvotci/katna.py:get_veljvo", "py/latkerlo_jvotci/katna.py:search_selrafsi_from_rafsi", "py/latkerlo_jvotci/katna.py:selrafsi_list_from_rafsi_list", "py/latkerlo_jvotci/tools.py:is_brivla"]}
{"id": "C67", "title": "Rafsi on their own between hyphens", "statement": "CVV, CV'V and CCV rafsi are allowed on their own between y-hyphens, and so are sequences of rafsi that end in a vowel: a word that consists of a gismu without its last vowel, y, one or more such stretches each with 'y behind it, and a last stretch is EXTENDED_LUJVO, and analyse_brivla returns exactly these pieces (differences.md).", "quantifier": "every gismu, every number of stretches, every number of rafsi in each, every combination of the options (words shorter than 10^93 letters)", "why_tests_cant": "Words of any number of parts; each of the checks on whole words (slinku'i, tosmabru, cmavo falling off) could reject some of them.", "anchors": ["py/latkerlo_jvotci/tools.py:analyse_brivla", "py/latkerlo_jvotci/katna.py:jvokaha_2", "py/latkerlo_jvotci/tools.py:check_zihevla_or_rafsi"]}
{"id": "C68", "title": "The shape functions", "statement": "rafsi_tarmi gives, for every string, the number of its shape: 1 to 8 for CVCCV, CVCC, CCVCV, CCVC, CVC, CV'V, CCV and CVV, 0 for 'y and for a single letter that is not a vowel, and 9 for everything else. is_gismu_shape is true exactly of CVCCV and CCVCV; is_valid_rafsi exactly of the CLL rafsi, with permissible and initial pairs of consonants. strip_hyphens removes all apostrophes and y's at both ends and nothing else, and tarmi_ignoring_hyphen gives the shape of what is left. is_vowel, is_consonant, is_only_lojban_characters, contains_consonant and is_glide say what their names say.", "quantifier": "every string; allow_mz set or not", "why_tests_cant": "The functions branch on lengths and letters; only the strings that occur in tests are settled by them.", "anchors": ["py/latkerlo_jvotci/tarmi.py:rafsi_tarmi", "py/latkerlo_jvotci/tarmi.py:is_valid_rafsi", "py/latkerlo_jvotci/tarmi.py:is_gismu_shape", "py/latkerlo_jvotci/tarmi.py:strip_hyphens", "py/latkerlo_jvotci/tarmi.py:tarmi_ignoring_hyphen"]}
{"id": "C69", "title": "is_gismu_or_lujvo and is_slinkuhi", "statement": "is_gismu_or_lujvo is true of exactly the gismu and lujvo: of a normally spelled word if and only if analyse_brivla (with CLUSTER) calls it GISMU or LUJVO; it raises an exception (NotBrivlaError) for the strings that begin CCV'y and end in a vowel, and for no others. is_slinkuhi is true of exactly the strings that do not begin with a vowel and make a lujvo, or a cmevla made of rafsi, with to in front, and answers for every string that ends in a vowel. Any other consonant and vowel in front of a word that begins with a consonant makes a lujvo of it if and only if to does.", "quantifier": "every string (shorter than 10^95 letters), every y_hyphens, allow_mz set or not; every consonant and vowel", "why_tests_cant": "Whether a string is a lujvo depends on all of its letters, and the slinku'i test tries one cmavo for all eighty-five.", "anchors": ["py/latkerlo_jvotci/tools.py:is_gismu_or_lujvo", "py/latkerlo_jvotci/tools.py:is_slinkuhi", "py/latkerlo_jvotci/katna.py:jvokaha"]}
{"id": "C70", "title": "get_lujvo returns a shortest lujvo", "statement": "For a tanru of up to six components no lujvo for the tanru, with whatever rafsi and hyphens, is shorter than the one get_lujvo returns (with generate_cmevla: no cmevla). For n components none is shorter by more than (182 n - 99) / 1000 letters. For tanru of many components the lujvo returned need not be a shortest one.", "quantifier": "every tanru for which get_lujvo succeeds, every combination of options, every other choice of rafsi and hyphens", "why_tests_cant": "The score also counts hyphens, shapes and vowels, and the number of candidates is exponential; a tanru long enough for these to outweigh a letter is not in any test.", "anchors": ["py/latkerlo_jvotci/jvozba.py:get_lujvo", "py/latkerlo_jvotci/jvozba.py:get_lujvo_from_list", "py/latkerlo_jvotci/jvozba.py:score"]}
{"id": "C71", "title": "Calls nest to a fixed depth", "statement": "However long the input, the functions of the package that call each other never nest deeper than a fixed number of levels: below a call of analyse_brivla (is_brivla, get_veljvo, score_lujvo) at most six calls of analyse_brivla and is_slinkuhi are open at the same time, below get_lujvo at most seven, below is_slinkuhi at most two. So no input can exhaust Python's recursion limit.", "quantifier": "every word, every tanru, every combination of options", "why_tests_cant": "The depth is reached only by words with several on-glides before their first consonant cluster, which no test contains, and tests cannot exclude an input that goes deeper.", "anchors": ["py/latkerlo_jvotci/tools.py:analyse_brivla", "py/latkerlo_jvotci/tools.py:is_brivla", "py/latkerlo_jvotci/tools.py:check_zihevla_or_rafsi", "py/latkerlo_jvotci/tools.py:is_slinkuhi", "py/latkerlo_jvotci/katna.py:jvokaha", "py/latkerlo_jvotci/jvozba.py:get_lujvo"]}
{"id": "C72", "title": "The search of get_lujvo is linear in the number of components", "statement": "For a tanru of n components get_lujvo tries at most 576 n combinations of a partial lujvo with a rafsi, although the number of ways to choose rafsi for the components is exponential and the lujvo returned is the best of all of them.", "quantifier": "every tanru, every combination of options", "why_tests_cant": "Tests have tanru of a few components; that the number of partial lujvo kept does not grow with the length of the tanru is a fact about all of them.", "anchors": ["py/latkerlo_jvotci/jvozba.py:get_lujvo_from_list", "py/latkerlo_jvotci/jvozba.py:combine", "py/latkerlo_jvotci/jvozba.py:update_current_best", "py/latkerlo_jvotci/jvozba.py:get_rafsi_list_list", "py/latkerlo_jvotci/jvozba.py:get_rafsi_for_rafsi"]}
{"id": "C73", "title": "How long a lujvo can be", "statement": "get_lujvo takes 10**100 for an infinite score: every lujvo it returns scores less and has fewer than 2*10^97 letters. A tanru of 2*10^97 or more components raises an exception; for gismu this is NoLujvoFoundError although a lujvo exists, so the promise that gismu always make a lujvo (C54) ends there. analyse_brivla, which makes the lujvo again to compare, calls no word of 2*10^97 or more rafsi a LUJVO.", "quantifier": "every tanru, every string, every combination of options", "why_tests_cant": "No test can have that many components; the constant is harmless in practice, but statements about all words must name it.", "anchors": ["py/latkerlo_jvotci/jvozba.py:get_lujvo_from_list", "py/latkerlo_jvotci/katna.py:jvokaha", "py/latkerlo_jvotci/tools.py:analyse_brivla"]}
{"id": "C74", "title": "The scripts that make lists of tests", "statement": "make_dictionary_test_list.py puts every word of the export into exactly one of its four lists, the one its type belongs to, in the order of the export. make_js_tests.py writes a file which, read as JavaScript, has for each of the three lists exactly the rows whose first cell is neither empty nor begins with #, cell by cell, and the words of the dictionary under their types, provided no cell needs an escape. (So the tests of the empty string in two of the lists, which the code would fail, reach no JavaScript test.)", "quantifier": "every export of the dictionary, every list of rows", "why_tests_cant": "The scripts have no tests, and an input that loses rows goes unnoticed: the tests that are lost are not run.", "anchors": ["make_dictionary_test_list.py:all_words", "make_js_tests.py:TEST_LISTS"]}
{"id": "C75", "title": "An extended lujvo taken apart and made again", "statement": "If analyse_brivla calls a word EXTENDED_LUJVO, get_veljvo lists its components and get_lujvo makes a lujvo of them which scores no more than the word (by score_lujvo, with the 100 that get_lujvo counts for each single y added).", "quantifier": "every option, every extended lujvo", "why_tests_cant": "The set of strings is infinite; the test lists contain a few thousand words. A test list pairs a tanru with the lujvo expected; it never looks for an accepted word with the same components and a lower score.", "anchors": ["py/latkerlo_jvotci/jvozba.py:get_lujvo_with_analytics", "py/latkerlo_jvotci/jvozba.py:combine", "py/latkerlo_jvotci/katna.py:get_veljvo", "py/latkerlo_jvotci/katna.py:score_lujvo", "py/latkerlo_jvotci/tools.py:analyse_brivla"]}
{"id": "C76", "title": "An extended cmevla taken apart and made again", "statement": "If analyse_brivla calls a word CMEVLA, and the word does not consist of rafsi alone, get_veljvo lists its components and get_lujvo with generate_cmevla makes a cmevla of them which scores no more than the word (by score_lujvo, with the 100 that get_lujvo counts for each single y added).", "quantifier": "every option, every cmevla with zi'evla in it or with more y than rafsi need", "why_tests_cant": "The set of strings is infinite; the test lists contain a few thousand words. Such names are hardly in any test list.", "anchors": ["py/latkerlo_jvotci/jvozba.py:get_lujvo_with_analytics", "py/latkerlo_jvotci/jvozba.py:combine", "py/latkerlo_jvotci/katna.py:get_veljvo", "py/latkerlo_jvotci/katna.py:score_lujvo", "py/latkerlo_jvotci/tools.py:analyse_brivla"]}
{"id": "C77", "title": "The functions call each other a linear number of times", "statement": "analyse_brivla, get_lujvo, get_veljvo and score_lujvo call analyse_brivla and is_slinkuhi, directly or in calls they make, at most a fixed number of times for each letter of the input: no word and no tanru makes the mutual recursion blow up. is_slinkuhi calls itself at most once.", "quantifier": "every string, every tanru, every combination of options", "why_tests_cant": "Inputs on which a recursive search explodes are rare and long; tests with ordinary words say nothing about them.", "anchors": ["py/latkerlo_jvotci/tools.py:analyse_brivla", "py/latkerlo_jvotci/tools.py:is_slinkuhi", "py/latkerlo_jvotci/tools.py:check_zihevla_or_rafsi", "py/latkerlo_jvotci/tools.py:is_brivla", "py/latkerlo_jvotci/jvozba.py:get_lujvo_with_analytics", "py/latkerlo_jvotci/katna.py:get_veljvo", "py/latkerlo_jvotci/katna.py:score_lujvo", "py/latkerlo_jvotci/katna.py:jvokaha"]}
{"id": "C78", "title": "The JavaScript package takes words apart as the Python package does", "statement": "For every word and all options, analyseBrivla, isBrivla and getVeljvo of the JavaScript package give the result that analyse_brivla, is_brivla and get_veljvo give in Python, or throw the exception of the same name, whenever Python does not raise IndexError. Words on which Python raises IndexError are empty, have 'yy in them or end in r after two vowels.", "quantifier": "every string, every combination of options", "why_tests_cant": "The two versions are kept by hand. The common test lists show that they agree on some thousands of words; a difference sits in a branch no list reaches.", "anchors": ["py/latkerlo_jvotci/tools.py:analyse_brivla", "py/latkerlo_jvotci/tools.py:is_brivla", "py/latkerlo_jvotci/katna.py:get_veljvo", "js/src/tools.ts:analyseBrivla", "js/src/tools.ts:isBrivla", "js/src/katna.ts:getVeljvo"]}
{"id": "C79", "title": "The JavaScript package makes and scores lujvo as the Python package does", "statement": "For every tanru and all options, getLujvo and getLujvoWithAnalytics of the JavaScript package give the word, score and index pairs that Python gives, or throw the exception of the same name, whenever Python does not raise IndexError; scoreLujvo gives the score that score_lujvo gives.", "quantifier": "every tanru, every string, every combination of options", "why_tests_cant": "The search for the best lujvo goes through all combinations of rafsi; two searches that differ in one test differ on few tanru.", "anchors": ["py/latkerlo_jvotci/jvozba.py:get_lujvo", "py/latkerlo_jvotci/jvozba.py:get_lujvo_with_analytics", "py/latkerlo_jvotci/katna.py:score_lujvo", "js/src/jvozba.ts:getLujvo", "js/src/jvozba.ts:getLujvoWithAnalytics", "js/src/katna.ts:scoreLujvo"]}
{"id": "C80", "title": "What the JavaScript package throws", "statement": "For every string and all options, analyseBrivla, getVeljvo and scoreLujvo of the JavaScript package end, and throw nothing but NotBrivlaError and DecompositionError, also where Python raises IndexError; isBrivla throws nothing but DecompositionError. getLujvo and getLujvoWithAnalytics end and throw nothing but the exceptions of the package and TypeError; and no TypeError without expRafsi and with more than one word.", "quantifier": "every string, every tanru, every combination of options", "why_tests_cant": "JavaScript reads past the end of a word without an exception; whether a TypeError can come of it depends on every path through functions that call each other.", "anchors": ["js/src/tools.ts:analyseBrivla", "js/src/tools.ts:isBrivla", "js/src/katna.ts:getVeljvo", "js/src/katna.ts:scoreLujvo", "js/src/jvozba.ts:getLujvo", "js/src/jvozba.ts:getLujvoWithAnalytics"]}
{"id": "C81", "title": "Settings strings of the Rust crate", "statement": "Printed settings parse back to the same settings. A string parses exactly when every character is one of cSAFC21rgz and no two are about the same setting; then each setting is what its flag says or the default, in whatever order the flags stand. Settings::apply_flags gives None exactly when some character is no flag; on default settings it gives what parsing gives; flags about different settings do not affect each other; c, r, g, z turn their setting over each time, S and C reset theirs, A, F, 2, 1 set theirs or reset it if it has that value. The list of all settings has each of the 144 exactly once.", "quantifier": "all strings and all settings", "why_tests_cant": "tests parse a few strings; the interactive prompt applies any sequence of flags to any settings", "anchors": ["rs/src/tarmi.rs:Settings", "rs/src/tarmi.rs:apply_flags", "rs/src/tarmi.rs:SETTINGS_ITERATOR"]}
{"id": "C82", "title": "What stands before the first y of a brivla", "statement": "If no two consonants are adjacent before the first y of a brivla, then what stands before that y is one word that stays with the rest: a CVC rafsi, or a single cmavo (no consonant after its first letter) and an apostrophe. In particular torai'y'ismu and toiysmu, and all strings like them, are not brivla (differences.md).", "quantifier": "all strings that is_brivla accepts under some options, split at their first y", "why_tests_cant": "differences.md gives three words; the claim is about every word of these shapes, with anything after the y", "anchors": ["py/latkerlo_jvotci/tools.py:analyse_brivla", "differences.md:torai'y'ismu"]}
{"id": "C83", "title": "Any rafsi and zi'evla can be joined by y", "statement": "Take two or more rafsi and zi'evla, at least one of them a zi'evla, and join them with y: y after a rafsi that ends in a consonant and after the stem of a zi'evla (without its last vowel; it may end in an on-glide), 'y after a vowel and after a whole zi'evla, and an apostrophe more before a vowel that is no on-glide; at the end a rafsi in a vowel or a whole zi'evla. analyse_brivla returns EXTENDED_LUJVO and exactly these pieces, whatever the options, provided the word does not begin with CCV'y nor (under STANDARD) with CVV'y or CV'V'y, and is not a slinku'i; the last cannot be if some zi'evla is whole or is not at the beginning.", "quantifier": "all sequences of rafsi and zi'evla of any length, all options; zi'evla without mz if allow_mz is set", "why_tests_cant": "differences.md has briiymle, plukauaiymle and plukauai'ymle; there are infinitely many zi'evla and sequences of them", "anchors": ["py/latkerlo_jvotci/tools.py:analyse_brivla", "py/latkerlo_jvotci/tools.py:check_zihevla_or_rafsi", "differences.md:briiymle"]}
{"id": "C84", "title": "What get_lujvo, get_veljvo and score_lujvo raise", "statement": "For every tanru, as a string or a list, and all options, get_lujvo and get_lujvo_with_analytics raise nothing but NoLujvoFoundError, NonLojbanCharacterError, NotZihevlaError, InvalidClusterError and IndexError (and NameError at the pinned commit), never NotBrivlaError or DecompositionError from inside; IndexError only for fewer than two words, for a word of which nothing is left after normalisation, and, unless FORCE_Y, for a component with a dash behind r after two vowels. For words without dashes: NonLojbanCharacterError exactly when some character is not a Lojban letter other than y, and otherwise, given two words or more, a lujvo or NoLujvoFoundError. Fewer than two words never give a lujvo. get_veljvo and score_lujvo raise exactly what analyse_brivla raises, and DecompositionError for gismu and zi'evla.", "quantifier": "all tanru (strings and lists of strings), all words, all options", "why_tests_cant": "the exceptions come from nested calls of the word analysis on parts of arbitrary strings; tests can only show exceptions that do occur", "anchors": ["py/latkerlo_jvotci/jvozba.py:get_lujvo", "py/latkerlo_jvotci/jvozba.py:get_lujvo_with_analytics", "py/latkerlo_jvotci/jvozba.py:get_rafsi_list_list", "py/latkerlo_jvotci/katna.py:get_veljvo", "py/latkerlo_jvotci/katna.py:score_lujvo", "py/latkerlo_jvotci/exceptions.py"]}
{"id": "C85", "title": "The Rust crate's view of letters, shapes, rafsi, scores and clusters", "statement": "For every ASCII string, the Rust crate's helper functions answer as the Python version's do, with exactly these exceptions. Shape of a rafsi: it differs for 'y, for consonant + something that is no letter of either kind + vowel, for consonant + vowel + non-consonant + consonant, and for consonant + non-vowel + vowel + something when the two are not both consonants; CLL rafsi and gismu always get the same shape. CLL rafsi: Rust also takes strings such as 'blay' (initial pair, vowel, a character that is no vowel, consonant or apostrophe). Scores of pieces: they differ exactly when the piece without hyphens has one of those shapes. Consonant clusters in the middle of zi'evla: Rust also allows three consonants whose first two may not meet when the last two may begin a word ('bpl'). Vowels, consonants, on-glides, gismu and the cutting of vowel runs are the same, and so are the forms made for a rafsi of any kind.", "quantifier": "all strings of ASCII characters, all kinds of rafsi, all options", "why_tests_cant": "the functions are different code in two languages over all strings; the shared test lists contain only words, and none of the strings for which they differ", "anchors": ["rs/src/tarmi.rs", "rs/src/jvozba.rs", "py/latkerlo_jvotci/tarmi.py:rafsi_tarmi", "py/latkerlo_jvotci/tarmi.py:is_valid_rafsi", "py/latkerlo_jvotci/tarmi.py:is_zihevla_middle_cluster", "py/latkerlo_jvotci/jvozba.py:score", "py/latkerlo_jvotci/jvozba.py:get_rafsi_for_rafsi"]}
{"id": "C86", "title": "The Rust crate makes the same lujvo", "statement": "From two components or more (fewer than 60000), each a CLL rafsi between dashes, a gismu, or a word that neither version takes for a brivla (such as a cmavo), get_lujvo_from_list of the Rust crate and of the Python version find the same lujvo or cmevla with the same score and the same places of its rafsi, or both report that none was found; for all settings. Both say the same about whether a word of Lojban letters is a slinku'i, if it begins with a consonant, ends in a vowel and has no two y's in a row; the recursion this takes in Rust is two levels deep at most.", "quantifier": "all lists of such components, all settings, all words of the shape described; whatever the part of the crate that is not modelled does", "why_tests_cant": "the two programs search differently written tables and compare integer scores of a bounded type; agreement must hold for every choice of components, and the test lists are finite", "anchors": ["rs/src/jvozba.rs", "rs/src/katna.rs", "rs/src/tools.rs", "py/latkerlo_jvotci/jvozba.py:get_lujvo_from_list", "py/latkerlo_jvotci/tools.py:is_slinkuhi"]}
{"id": "C87", "title": "The Rust crate reads tanru and cuts lujvo as the Python version does", "statement": "A word is read the same way by both versions exactly when it has no full stop that only the Rust crate removes (a second one at the beginning, or one at the end). Of a tanru of two words or more without such stops (and without the control characters that are white space for Python only), each word a CLL rafsi between dashes, a gismu, or a word neither version takes for a brivla, get_lujvo and get_lujvo_with_analytics of both versions give the same word, score and places of rafsi, or both report that there is none. A word of Lojban letters without two y's in a row that does not begin like bla'y is a gismu or lujvo for both or for neither (is_gismu_or_lujvo), and if it ends in a vowel both cut it into the same pieces or neither cuts it (jvokaha). The word for a rafsi and the places of rafsi in a list of pieces are the same for every string and every list.", "quantifier": "all words, all tanru of the kind described, all settings, all lists of pieces", "why_tests_cant": "the reading, splitting, search and cutting are written differently in the two languages; agreement on every input is no matter of examples", "anchors": ["rs/src/jvozba.rs", "rs/src/katna.rs", "rs/src/tools.rs", "py/latkerlo_jvotci/jvozba.py:get_lujvo", "py/latkerlo_jvotci/tools.py:normalise", "py/latkerlo_jvotci/katna.py:jvokaha", "py/latkerlo_jvotci/tools.py:is_gismu_or_lujvo", "py/latkerlo_jvotci/katna.py:search_selrafsi_from_rafsi", "py/latkerlo_jvotci/tools.py:get_rafsi_indices"]}
{"id": "C88", "title": "The Rust crate analyses gismu and lujvo as the Python version does", "statement": "Take a word without a full stop that only the Rust crate removes. analyze_brivla of the Rust crate says GISMU of it exactly if analyse_brivla does. If the Python version says LUJVO (and the word has fewer than 180000 letters) the Rust crate says so too and gives the same pieces; and if the Rust crate says LUJVO of a word of Lojban letters without two y's in a row that does not begin like bla'y, so does the Python version. If every rafsi of such a lujvo belongs to a word, get_veljvo gives the same words in both. score_lujvo of the Rust crate is that of the Python version plus 100 for each hyphen of one letter, if the lujvo is written in small letters without commas and h.", "quantifier": "all words, all settings, whatever the parts of analyze_brivla do that deal with zi'evla and experimental rafsi", "why_tests_cant": "the number of words and of ways to cut them is unlimited, and the two programs search in different ways", "anchors": ["rs/src/tools.rs", "rs/src/katna.rs", "py/latkerlo_jvotci/tools.py:analyse_brivla", "py/latkerlo_jvotci/katna.py:get_veljvo", "py/latkerlo_jvotci/katna.py:score_lujvo"]}
{"id": "C89", "title": "The Rust crate says the same of words without y", "statement": "analyze_brivla of the Rust crate gives the same type and the same pieces as analyse_brivla for every word that is read as vowels, consonants and apostrophes and ends in a vowel, and refuses the same ones, if the word has no full stop that only the Rust crate removes, fewer than 180000 letters and, with allow_mz, no mz before b, d, g, m or v. With these too it accepts whatever the Python version accepts, and more (umzga).", "quantifier": "all such words, all settings, whatever the part of analyze_brivla does that deals with y", "why_tests_cant": "the two programs test for falling apart in different orders and recurse through different functions; the words are unlimited in number and the recursion is as deep as the word is long", "anchors": ["rs/src/tools.rs", "rs/src/tarmi.rs", "py/latkerlo_jvotci/tools.py:analyse_brivla", "py/latkerlo_jvotci/tools.py:check_zihevla_or_rafsi"]}
{"id": "C90", "title": "get_veljvo and is_brivla of the Rust crate", "statement": "For every lujvo the Rust crate's get_veljvo gives the list that the Python version gives, also if rafsi in it belong to no word and have to be shown with dashes or vowels. For words without y that end in a vowel the two give the same list or both fail. is_brivla gives the same answer for all words of vowels, consonants and apostrophes that end in a vowel or consonant.", "quantifier": "all words of fewer than 180000 letters without a full stop that only the Rust crate removes (and, for the second and third part, with allow_mz no mz before b, d, g, m or v), all settings", "why_tests_cant": "each rafsi that belongs to no word is looked up with the whole word analysis, in two programs that are built differently; lujvo can have any number of rafsi", "anchors": ["rs/src/katna.rs", "rs/src/tools.rs", "py/latkerlo_jvotci/katna.py:get_veljvo", "py/latkerlo_jvotci/katna.py:selrafsi_list_from_rafsi_list", "py/latkerlo_jvotci/tools.py:is_brivla"]}
{"id": "C91", "title": "The Rust crate refuses alike and makes the same lujvo by its own analysis", "statement": "For a word of vowels, consonants and apostrophes that ends in a vowel, analyze_brivla of the Rust crate gives an answer or NotBrivlaError and no other error, and it refuses exactly the words that the Python version refuses. Therefore get_lujvo of the Rust crate, with its own analyze_brivla, makes of every tanru of rafsi, gismu, cmavo and other refused words the same lujvo or cmevla, score and rafsi as the Python version, or both find none.", "quantifier": "all such words of fewer than 180000 letters (with allow_mz: without mz before b, d, g, m or v), all tanru of 2 to 59999 of them, all settings", "why_tests_cant": "which error comes out depends on every step of a recursive analysis of a word of any length, and the tanru can have any number of components", "anchors": ["rs/src/tools.rs", "rs/src/jvozba.rs", "py/latkerlo_jvotci/tools.py:analyse_brivla", "py/latkerlo_jvotci/jvozba.py:get_lujvo"]}
{"id": "C92", "title": "The Rust crate undoes what it makes", "statement": "In the Rust crate, get_lujvo makes a lujvo (or cmevla, if asked for) of every tanru of two or more gismu, whatever the settings. Every lujvo that it makes of gismu and cmavo is a LUJVO for its own analyze_brivla, with the rafsi in the places that were returned. If the words are listed and do not share their first four letters with other listed words, get_veljvo gives back the tanru, and score_lujvo the score returned by get_lujvo_with_analytics, plus 100 for every r or n hyphen and up to the tie-break of 1.", "quantifier": "all tanru of 2 to 19999 such words separated by any white space, all settings, all lujvo returned", "why_tests_cant": "the lujvo has any number of rafsi, and the search and the analysis are different programs; only a proof relates them for all tanru", "anchors": ["rs/src/jvozba.rs", "rs/src/katna.rs", "rs/src/tools.rs"]}
{"id": "C93", "title": "The Rust crate finds the best lujvo", "statement": "Of all lujvo for a tanru of rafsi, gismu and cmavo (or cmevla, if asked for), with whatever rafsi of the components and whatever hyphens the rules allow, get_lujvo of the Rust crate returns one with the lowest score, and with up to six components none is shorter. It fails only with NoLujvoFoundError, and for gismu and cmavo only if there is no lujvo at all.", "quantifier": "all tanru of 2 to 59999 such components, all settings, all lujvo they have", "why_tests_cant": "the number of lujvo for a tanru grows exponentially with its length; the search keeps only a few of them at each step", "anchors": ["rs/src/jvozba.rs"]}
{"id": "C94", "title": "The Rust crate reads and undoes its cmevla", "statement": "A word that is the pieces of a cmevla joined is a CMEVLA with these pieces for both versions, get_veljvo gives the same words in both, and the scores differ by 100 for each one-letter hyphen; in particular every CMEVLA without y of the Python version is one of the Rust crate. A cmevla that get_lujvo of the Rust crate makes of gismu and cmavo is read back by the crate as a CMEVLA, divided where it was put together; and get_veljvo gives the tanru back if its words are listed.", "quantifier": "all such words of fewer than 180000 letters, also those that end in r; all tanru of 2 to 19999 gismu and cmavo, all settings", "why_tests_cant": "a word that ends in r takes another path through the cutter (the Python version raises IndexError there, the Rust crate reads a NUL), and the cut words and tanru are unbounded", "anchors": ["rs/src/katna.rs: jvokaha, jvokaha_2, get_veljvo, score_lujvo", "rs/src/tools.rs: analyze_brivla", "rs/src/jvozba.rs: get_lujvo_with_analytics", "py/latkerlo_jvotci/katna.py: jvokaha, get_veljvo", "py/latkerlo_jvotci/tools.py: analyse_brivla"]}
{"id": "C95", "title": "The Rust crate and the Python version agree on all words without y", "statement": "Of a word without y, whatever its last letter is, analyze_brivla of the Rust crate and analyse_brivla say the same: the same type and the same pieces, or both refuse it with NotBrivlaError (the crate does not panic). Of a word without y that ends in a consonant the Rust crate says CMEVLA exactly if it is the pieces of a cmevla joined, and get_veljvo gives the same words in both versions or both refuse it.", "quantifier": "all words that are read as vowels, consonants and apostrophes, of fewer than 180000 letters, and all settings (with allow_mz, words that end in a vowel must have no mz before b, d, g, m or v)", "why_tests_cant": "the words are unbounded, and the two cutters fail in different ways on words that end in r or an apostrophe", "anchors": ["rs/src/katna.rs: jvokaha, jvokaha_2, get_veljvo", "rs/src/tools.rs: analyze_brivla", "py/latkerlo_jvotci/katna.py: jvokaha, get_veljvo", "py/latkerlo_jvotci/tools.py: analyse_brivla"]}
{"id": "C96", "title": "The Python, JavaScript and Rust versions understand each other's lujvo", "statement": "Of a word without y the three versions say the same: the same type and the same pieces, or all refuse it with NotBrivlaError; and what is a LUJVO for the Python version, with y or without, is one for the two others, and the other way round for words of plain letters that end in a vowel, without yy, and that do not begin like bla'y. Of a text of gismu and cmavo the three versions make the same word with the same score and the same places of the rafsi, or all say that there is none. A word that any of them makes of listed gismu and cmavo is taken apart into that tanru by get_veljvo of all three. Hence different tanru of such words are made into different words, even by different versions.", "quantifier": "all words without y of fewer than 180000 letters (with allow_mz, those that end in a vowel must have no mz before b, d, g, m or v); all texts of 2 to 59999 (19999 for taking apart) gismu and cmavo, lujvo and cmevla, all settings", "why_tests_cant": "a difference would show only for a particular tanru and setting in a particular pair of versions, and there are infinitely many tanru", "anchors": ["py/latkerlo_jvotci/jvozba.py: get_lujvo", "py/latkerlo_jvotci/katna.py: get_veljvo", "js/src/jvozba.ts: getLujvo", "js/src/katna.ts: getVeljvo", "rs/src/jvozba.rs: get_lujvo", "rs/src/katna.rs: get_veljvo"]}
{"id": "C97", "title": "The Rust crate's pieces spell the word", "statement": "Whatever word analyze_brivla of the Rust crate accepts, the pieces it returns spell the word as it is read, and none of them is empty. It calls a word a cmevla exactly if the word ends in a consonant; all other accepted words end in a vowel. Gismu and zi'evla come back as one piece, a zi'evla has no y, an extended lujvo has one, and the gismu are exactly the words of the form CVCCV or CCVCV with permissible clusters.", "quantifier": "every string (ASCII; for the reading without full stops other than one at the beginning), every combination of options", "why_tests_cant": "Words of any length, with any number of y; the function puts the pieces together from several places, with hyphens carried over from one part to the next.", "anchors": ["rs/src/tools.rs:analyze_brivla", "rs/src/katna.rs:jvokaha2"]}
{"id": "C98", "title": "The whole analyze_brivla of the Rust crate follows the Python version", "statement": "analyze_brivla of the Rust crate, all of it, and analyse_brivla accept the same words without y, with the same type and pieces, and refuse the same ones with NotBrivlaError (with allow_mz for words that end in a consonant or do not have mz before a consonant). A word that Python calls a lujvo, with or without y, is a lujvo with the same pieces for the crate; a plain word that the crate calls a lujvo is one for Python; a cmevla made of CLL rafsi has the same pieces in both.", "quantifier": "every word of fewer than 180000 ASCII letters without stray full stops, every combination of options", "why_tests_cant": "Two programs kept by hand, compared on words of any length; the common test lists are finite.", "anchors": ["rs/src/tools.rs:analyze_brivla", "rs/src/katna.rs:jvokaha", "py/latkerlo_jvotci/tools.py:analyse_brivla"]}
{"id": "C99", "title": "The Rust crate does not panic", "statement": "analyze_brivla of the Rust crate returns for every word a result or an error. This is false: it panics on bily'aa. It holds for words without y: there the only error is NotBrivlaError.", "quantifier": "every word of fewer than 180000 ASCII letters without stray full stops, every combination of options", "why_tests_cant": "A panic hides in an unwrap() that is reached only by words of a certain form, which no test list contains.", "anchors": ["rs/src/tools.rs:analyze_brivla", "rs/src/tarmi.rs:split_vowel_cluster"]}
{"id": "C100", "title": "A word that the Rust crate accepts has a consonant", "statement": "If analyze_brivla of the Rust crate returns a result for w, w contains a consonant, unless on-glides count as consonants and no cluster is required; in that case words of vowels alone are accepted (iu'yiu).", "quantifier": "every word of ASCII letters without stray full stops, every combination of options, every limit of recursion", "why_tests_cant": "The count of consonants goes through a loop over the parts of a word, with a different rule for each kind of part; a wrong count shows only on words of unusual parts.", "anchors": ["rs/src/tools.rs:analyze_brivla", "rs/src/tools.rs:check_zihevla_or_rafsi", "rs/src/katna.rs:jvokaha2"]}
{"id": "C101", "title": "How components have to be written for the Rust crate", "statement": "If get_lujvo_from_list of the Rust crate returns a lujvo, every component was a word of Lojban letters without y, or such letters not ending in an apostrophe with dashes after them and perhaps before them. If the first component is anything else, the error is NonLojbanCharacterError, whatever the others are.", "quantifier": "all lists of components, all settings, whatever the part of the crate that is not modelled does", "why_tests_cant": "Tests try a few wrong characters in a few places; the claim is about every character in every component, dashed or not.", "anchors": ["rs/src/jvozba.rs:get_rafsi_list_list", "rs/src/jvozba.rs:get_lujvo_from_list"]}
