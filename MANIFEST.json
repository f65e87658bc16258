{
 "claims": [
  {
   "property": "C01",
   "status": "proved",
   "theorems": [
    "Jvotci.C01_pieces_spell_word"
   ],
   "note": ""
  },
  {
   "property": "C02",
   "status": "proved",
   "theorems": [
    "Jvotci.C02_type_by_last_letter",
    "Jvotci.C02_other_words_rejected"
   ],
   "note": ""
  },
  {
   "property": "C03",
   "status": "proved",
   "theorems": [
    "Jvotci.C03_gismu_iff"
   ],
   "note": ""
  },
  {
   "property": "C04",
   "status": "proved",
   "theorems": [
    "Jvotci.C04_simple_words"
   ],
   "note": ""
  },
  {
   "property": "C05",
   "status": "proved",
   "theorems": [
    "Jvotci.C05_compounds"
   ],
   "note": ""
  },
  {
   "property": "C06",
   "status": "proved",
   "theorems": [
    "Jvotci.C06_letters"
   ],
   "note": ""
  },
  {
   "property": "C07",
   "status": "proved",
   "theorems": [
    "Jvotci.C07_consonant_pairs"
   ],
   "note": ""
  },
  {
   "property": "C08",
   "status": "proved",
   "theorems": [
    "Jvotci.C08_no_banned_triple"
   ],
   "note": ""
  },
  {
   "property": "C09",
   "status": "proved",
   "theorems": [
    "Jvotci.C09_cll_rafsi",
    "Jvotci.C09_long_rafsi"
   ],
   "note": ""
  },
  {
   "property": "C10",
   "status": "proved",
   "theorems": [
    "Jvotci.C10_apostrophes"
   ],
   "note": ""
  },
  {
   "property": "C11",
   "status": "proved",
   "theorems": [
    "Jvotci.C11_force_y",
    "Jvotci.C11_lujvo_hyphens"
   ],
   "note": ""
  },
  {
   "property": "C12",
   "status": "proved",
   "theorems": [
    "Jvotci.C12_r_and_n"
   ],
   "note": ""
  },
  {
   "property": "C13",
   "status": "proved",
   "theorems": [
    "Jvotci.C13_rafsi_indices"
   ],
   "note": ""
  },
  {
   "property": "C14",
   "status": "proved",
   "theorems": [
    "Jvotci.C14_budget_never_exhausted",
    "Jvotci.C14_depth_bounded_by_length",
    "Jvotci.C14_recursive_equations",
    "Jvotci.C14_equations_determine_the_program"
   ],
   "note": ""
  },
  {
   "property": "C15",
   "status": "partial",
   "theorems": [
    "Jvotci.C15_index_error_partial",
    "Jvotci.C15_decomposition_error_partial",
    "Jvotci.C15_words_without_y_partial",
    "Jvotci.C15_false",
    "Jvotci.C15_exceptions_partial"
   ],
   "note": "False of the code as stated (C15_false: IndexError for \"\", ba'yyla, smatyspageir; DecompositionError for laty'aoa). The partial theorems confine the exceptions: IndexError only for the empty string, for 'yy under standard hyphens and for a final VVr or V'Vr; DecompositionError only for an indivisible vowel run after y'; neither for non-empty words without y."
  },
  {
   "property": "C16",
   "status": "proved",
   "theorems": [
    "Jvotci.C16_brivla_letters",
    "Jvotci.C16_is_brivla"
   ],
   "note": ""
  },
  {
   "property": "C17",
   "status": "proved",
   "theorems": [
    "Jvotci.C17_spelling_variants",
    "Jvotci.C17_spelling_variants_tanru"
   ],
   "note": ""
  },
  {
   "property": "C18",
   "status": "proved",
   "theorems": [
    "Jvotci.C18_text_or_list",
    "Jvotci.C18_every_text"
   ],
   "note": ""
  },
  {
   "property": "C19",
   "status": "proved",
   "theorems": [
    "Jvotci.C19_analyse",
    "Jvotci.C19_exceptions_differ",
    "Jvotci.C19_lujvo"
   ],
   "note": "C19_exceptions_differ shows that the exception can differ (IndexError or NotBrivlaError), so equality of exceptions is not claimed for analyse_brivla."
  },
  {
   "property": "C20",
   "status": "proved",
   "theorems": [
    "Jvotci.C20_no_y",
    "Jvotci.C20_extends"
   ],
   "note": ""
  },
  {
   "property": "C21",
   "status": "proved",
   "theorems": [
    "Jvotci.C21_last_letter",
    "Jvotci.C21_last_letter_get_lujvo"
   ],
   "note": ""
  },
  {
   "property": "C22",
   "status": "proved",
   "theorems": [
    "Jvotci.C22_indices"
   ],
   "note": "For every tanru given as a list or as text (Words)."
  },
  {
   "property": "C23",
   "status": "proved",
   "theorems": [
    "Jvotci.C23_slices"
   ],
   "note": ""
  },
  {
   "property": "C24",
   "status": "proved",
   "theorems": [
    "Jvotci.C24_score"
   ],
   "note": "Score of the dynamic programming search, spelled out as the published sum over the returned slices; the tie-break is that of the first two components. README.md:168 and examples/py_example.py:29 give a score (8597 for tcana jatna) that the code does not compute (8997)."
  },
  {
   "property": "C25",
   "status": "proved",
   "theorems": [
    "Jvotci.C25_lowest_score"
   ],
   "note": "Against LujvoOf (Verif/SpecLujvo.lean), a specification of the lujvo of a tanru that does not mention the search. The number of candidates is exponential; the theorem covers all of them."
  },
  {
   "property": "C26",
   "status": "proved",
   "theorems": [
    "Jvotci.C26_nothing_found"
   ],
   "note": "The search starts from the score 10^100, so the theorem excludes lujvo of fewer than 10^96 letters; it also covers the errors raised while the rafsi lists are built."
  },
  {
   "property": "C27",
   "status": "proved",
   "theorems": [
    "Jvotci.C27_joints"
   ],
   "note": ""
  },
  {
   "property": "C28",
   "status": "proved",
   "theorems": [
    "Jvotci.C28_no_assertion_error"
   ],
   "note": ""
  },
  {
   "property": "C29",
   "status": "proved",
   "theorems": [
    "Jvotci.C29_rafsi_table"
   ],
   "note": ""
  },
  {
   "property": "C30",
   "status": "proved",
   "theorems": [
    "Jvotci.C30_returns",
    "Jvotci.C30_one_per_rafsi",
    "Jvotci.C30_decomposition_error"
   ],
   "note": "For every accepted word of type LUJVO, CMEVLA or extended lujvo, for which (with the import in place) it is proved to return; the error when the word is not one."
  },
  {
   "property": "C31",
   "status": "proved",
   "theorems": [
    "Jvotci.C31_tables"
   ],
   "note": ""
  },
  {
   "property": "C32",
   "status": "proved",
   "theorems": [
    "Jvotci.C32_split_vowel_cluster",
    "Jvotci.C32_unique",
    "Jvotci.C32_pieces",
    "Jvotci.C32_error"
   ],
   "note": ""
  },
  {
   "property": "C33",
   "status": "proved",
   "theorems": [
    "Jvotci.C33_settings_iterator"
   ],
   "note": ""
  },
  {
   "property": "C34",
   "status": "proved",
   "theorems": [
    "Jvotci.C34_no_lujvo_at_pinned",
    "Jvotci.C34_no_LUJVO_at_pinned",
    "Jvotci.C34_import_changes_nothing_else"
   ],
   "note": ""
  },
  {
   "property": "C35",
   "status": "partial",
   "theorems": [
    "Jvotci.C35_cmevla_words_partial",
    "Jvotci.C35_words_partial",
    "Jvotci.C35_relation_partial",
    "Jvotci.C35_agree_partial",
    "Jvotci.C35_known_partial",
    "Jvotci.C35_false",
    "Jvotci.C35_false_tie"
   ],
   "note": "False of the code (C35_false: the hyphen y counts 1000 in one and 1100 in the other; C35_false_tie). Proved: the exact difference for every word read back as made (C35_relation_partial), agreement for two components without y (C35_agree_partial), and that score_lujvo returns, with that difference, for tanru of known words (C35_known_partial) and of any words, except zi'evla with mz under allow_mz (C35_words_partial); the same for cmevla that are accepted (C35_cmevla_words_partial)."
  },
  {
   "property": "C36",
   "status": "partial",
   "theorems": [
    "Jvotci.C36_cluster_partial",
    "Jvotci.C36_break_partial",
    "Jvotci.C36_false"
   ],
   "note": "False with exp_rafsi_shapes (C36_false); proved for every other combination of options (C36_cluster_partial), and a weaker statement for all (C36_break_partial)."
  },
  {
   "property": "C37",
   "status": "proved",
   "theorems": [
    "Jvotci.C37_reading_found",
    "Jvotci.C37_reading_unique",
    "Jvotci.C37_only_readings"
   ],
   "note": "Found, unique, and conversely: what the cutter returns is a reading unless it ends in a hyphen or has two hyphens in a row."
  },
  {
   "property": "C38",
   "status": "partial",
   "theorems": [
    "Jvotci.C38_read_back_partial",
    "Jvotci.C38_gismu_partial",
    "Jvotci.C38_false",
    "Jvotci.C38_false_experimental",
    "Jvotci.C38_cmevla_words_partial",
    "Jvotci.C38_cmevla_parts_partial",
    "Jvotci.C38_parts_partial",
    "Jvotci.C38_words_partial",
    "Jvotci.C38_false_mz",
    "Jvotci.C38_false_cmevla"
   ],
   "note": "False in general (C38_false, C38_false_experimental, C38_false_mz, C38_false_cmevla). Proved for brivla made of any words, zi'evla included, not between dashes (C38_words_partial), and of any parts but experimental rafsi and improper diphthongs (C38_parts_partial), in both cases unless allow_mz is set and a zi'evla has mz in it. For cmevla, proved for all tanru of gismu and cmavo (C38_gismu_partial), and for every other tanru whose chosen rafsi have no improper diphthong and no whole gismu inside (C38_read_back_partial). For cmevla with zi'evla, C38_cmevla_words_partial and C38_cmevla_parts_partial say exactly which are accepted (all but those whose beginning falls off and slinku'i), and that those accepted are divided where they were put together."
  },
  {
   "property": "C39",
   "status": "proved",
   "theorems": [
    "Jvotci.C39_zihevla"
   ],
   "note": ""
  },
  {
   "property": "C40",
   "status": "partial",
   "theorems": [
    "Jvotci.C40_normalise_is_reading",
    "Jvotci.C40_false",
    "Jvotci.C40_false_empty",
    "Jvotci.C40_normalise_idempotent_partial",
    "Jvotci.C40_exceptions"
   ],
   "note": "False of the code as stated (C40_false, C40_false_empty): a second full stop or an empty result. The partial theorem covers every other word, and C40_exceptions shows the excluded cases all fail."
  },
  {
   "property": "C41",
   "status": "proved",
   "theorems": [
    "Jvotci.C41_only_lujvo",
    "Jvotci.C41_every_lujvo",
    "Jvotci.C41_lujvo"
   ],
   "note": "Against LujvoPieces (Verif/SpecPieces.lean). The search starts from the score 10^100, hence the bound on the length in one direction."
  },
  {
   "property": "C42",
   "status": "proved",
   "theorems": [
    "Jvotci.C42_every_cmevla",
    "Jvotci.C42_only_cmevla"
   ],
   "note": "Against CmevlaPieces (Verif/SpecPieces.lean)."
  },
  {
   "property": "C43",
   "status": "partial",
   "theorems": [
    "Jvotci.C43_round_trip_partial",
    "Jvotci.C43_false",
    "Jvotci.C43_cmevla_words_partial",
    "Jvotci.C43_false_cmevla",
    "Jvotci.C43_words_partial"
   ],
   "note": "False for gismu with the first four letters of another (C43_false). Proved for tanru of all listed gismu and cmavo but 17 named words (C43_round_trip_partial), and with zi'evla, whole or cut, among them, except zi'evla with mz under allow_mz (C43_words_partial). The same for cmevla, whenever analyse_brivla accepts the cmevla made (C43_cmevla_words_partial); it is false of the others (C43_false_cmevla)."
  },
  {
   "property": "C44",
   "status": "proved",
   "theorems": [
    "Jvotci.C44_returns",
    "Jvotci.C44_score_lujvo",
    "Jvotci.C44_spelling"
   ],
   "note": "The tie-break looks at the word as typed, so VOIZBA and voizba differ by one point. With the import in place the score is proved to be returned for every accepted compound."
  },
  {
   "property": "C45",
   "status": "proved",
   "theorems": [
    "Jvotci.C45_zihevla",
    "Jvotci.C45_syllables_unique",
    "Jvotci.C45_initial_cluster",
    "Jvotci.C45_middle_cluster"
   ],
   "note": "For the program with the missing import (C34) in place. Clusters of three consonants beginning with mz are never accepted, though four can be."
  },
  {
   "property": "C46",
   "status": "partial",
   "theorems": [
    "Jvotci.C46_self_segregation_partial",
    "Jvotci.C46_cmavo_brivla_partial",
    "Jvotci.C46_lujvo_partial",
    "Jvotci.C46_y_false",
    "Jvotci.C46_mz_false"
   ],
   "note": "False in general: C46_y_false (words with y) and C46_mz_false (allow_mz) are witnesses. Proved for words without y and without allow_mz, with every other option; and for LUJVO with every option and y allowed after the cut, the rest being no GISMU, LUJVO or ZIhEVLA."
  },
  {
   "property": "C47",
   "status": "proved",
   "theorems": [
    "Jvotci.C47_extended",
    "Jvotci.C47_unique"
   ],
   "note": "Against ExtendedLujvo (Verif/SpecExtended.lean), for the program with the missing import (C34) in place."
  },
  {
   "property": "C48",
   "status": "proved",
   "theorems": [
    "Jvotci.C48_brivla"
   ],
   "note": "The zi'evla condition that no brivla is left when something is cut off refers to is_brivla on shorter words."
  },
  {
   "property": "C49",
   "status": "proved",
   "theorems": [
    "Jvotci.C49_only_cmevla",
    "Jvotci.C49_cmevla",
    "Jvotci.C49_cmevla_words"
   ],
   "note": "Against CmevlaPieces and ExtendedCmevla (Verif/SpecPieces.lean, Verif/SpecExtended.lean), for the program with the missing import (C34) in place. Which words raise IndexError is bounded (C49_cmevla_words), not characterised."
  },
  {
   "property": "C50",
   "status": "proved",
   "theorems": [
    "Jvotci.C50_jvozba_session",
    "Jvotci.C50_katna_session",
    "Jvotci.C50_exceptions",
    "Jvotci.C50_sessions_can_crash"
   ],
   "note": "Against SettingsAfter and CmevlaAfter (Verif/SpecCli.lean). Of the exceptions listed for jvozba.py only IndexError, InvalidClusterError and NameError do occur (C84_sessions)."
  },
  {
   "property": "C51",
   "status": "proved",
   "theorems": [
    "Jvotci.C51_unreadable",
    "Jvotci.C51_no_rafsi",
    "Jvotci.C51_mz_false"
   ],
   "note": "Against Reading (Verif/SpecPieces.lean). allow_mz with a word that has mz is excluded: C51_mz_false shows why."
  },
  {
   "property": "C52",
   "status": "proved",
   "theorems": [
    "Jvotci.C52_brivla",
    "Jvotci.C52_cmevla",
    "Jvotci.C52_cmevla_index",
    "Jvotci.C52_force_y_false"
   ],
   "note": "Looser (Verif/SpecOptions.lean) says which options relax which. C52_cmevla_index shows that the exception does occur, C52_force_y_false that FORCE_Y is different. allow_mz is kept fixed."
  },
  {
   "property": "C53",
   "status": "partial",
   "theorems": [
    "Jvotci.C53_found_partial",
    "Jvotci.C53_false",
    "Jvotci.C53_gismu_and_cmavo_partial",
    "Jvotci.C53_words_partial"
   ],
   "note": "False in general: C53_false shows both exceptions. Proved that there are no others (C53_found_partial), and none for gismu and cmavo (C53_gismu_and_cmavo_partial), nor for words, except zi'evla with mz under allow_mz, and CLL rafsi (C53_words_partial). Against LujvoOf (Verif/SpecLujvo.lean) and Spelled (Verif/SpecTanru.lean)."
  },
  {
   "property": "C54",
   "status": "proved",
   "theorems": [
    "Jvotci.C54_gismu",
    "Jvotci.C54_words"
   ],
   "note": "For the program with the missing import (C34) in place."
  },
  {
   "property": "C55",
   "status": "proved",
   "theorems": [
    "Jvotci.C55_not_worse",
    "Jvotci.C55_gismu_and_cmavo",
    "Jvotci.C55_words"
   ],
   "note": "Looser is in Verif/SpecOptions.lean, LujvoOf in Verif/SpecLujvo.lean, Spelled in Verif/SpecTanru.lean. No tanru is known for which the exception occurs; it is not excluded by the proof."
  },
  {
   "property": "C56",
   "status": "proved",
   "theorems": [
    "Jvotci.C56_no_mz",
    "Jvotci.C56_no_mz_isBrivla",
    "Jvotci.C56_brivla",
    "Jvotci.C56_isBrivla",
    "Jvotci.C56_cmevla_false"
   ],
   "note": "C56_no_mz and C56_brivla are the two statements; C56_cmevla_false is the cmevla that is lost. Length bound 10^91 as in C52."
  },
  {
   "property": "C57",
   "status": "proved",
   "theorems": [
    "Jvotci.C57_not_worse",
    "Jvotci.C57_gismu_and_cmavo",
    "Jvotci.C57_words"
   ],
   "note": "LujvoOf is in Verif/SpecLujvo.lean, Spelled in Verif/SpecTanru.lean. No tanru is known for which the exception occurs; it is not excluded by the proof."
  },
  {
   "property": "C58",
   "status": "partial",
   "theorems": [
    "Jvotci.C58_two_consonants",
    "Jvotci.C58_one_consonant",
    "Jvotci.C58_not_only_initial_partial",
    "Jvotci.C58_false"
   ],
   "note": "Proved, except that with ONE_CONSONANT the consonant may be the first letter: C58_false (su'yiu, without glides). What holds is that a consonant or on-glide follows after the first letter (C58_not_only_initial_partial)."
  },
  {
   "property": "C59",
   "status": "proved",
   "theorems": [
    "Jvotci.C59_listed_rafsi",
    "Jvotci.C59_assigned_rafsi",
    "Jvotci.C59_proposed_rafsi",
    "Jvotci.C59_listed_words",
    "Jvotci.C59_table",
    "Jvotci.C59_reproducible",
    "Jvotci.C59_false_two_entries",
    "Jvotci.C59_false_side_by_side",
    "Jvotci.C59_false_shared",
    "Jvotci.C59_pinned_table"
   ],
   "note": "Mentions in the notes are found for certain only that are set off from others (neither of the two characters before the mention is a hyphen), as the property says: C59_false_side_by_side shows that of -zuc-/-zu'a- only the first is found. C59_false_two_entries: the hypothesis of one entry per word is needed. C59_false_shared: the script does not ensure that a rafsi belongs to one word (C29 holds of the pinned table). Specification in Verif/SpecMake.lean."
  },
  {
   "property": "C60",
   "status": "proved",
   "theorems": [
    "Jvotci.C60_remade",
    "Jvotci.C60_cmevla",
    "Jvotci.C60_by_score_false"
   ],
   "note": "C60_by_score_false: measured by score_lujvo alone the new word may be worse (under FORCE_Y klanypretu is made again as lai'ypretu). Cmevla whose last part is a zi'evla without its last vowel are excluded: of the veljvo of some of them get_lujvo makes a worse cmevla or none."
  },
  {
   "property": "C61",
   "status": "partial",
   "theorems": [
    "Jvotci.C61_stable_partial",
    "Jvotci.C61_cmevla_partial",
    "Jvotci.C61_stable_false",
    "Jvotci.C61_default_false"
   ],
   "note": "The six words are excluded. For two of them it is false: brode (C61_stable_false: under FORCE_Y bo'e'ymlatu is made again as brodymlatu, which is shown as brod- mlatu) and broda (C61_default_false: baryrodycacra is made again as barbrodycacra); for the other four neither proved nor refuted."
  },
  {
   "property": "C62",
   "status": "partial",
   "theorems": [
    "Jvotci.C62_different_tanru_partial",
    "Jvotci.C62_known_partial",
    "Jvotci.C62_false",
    "Jvotci.C62_cmevla_partial"
   ],
   "note": "False of gismu that share their first four letters with another word (C62_false: datru mlatu and datro mlatu both make datrymlatu); those, rafsi and words between dashes and zi'evla with mz under allow_mz are missing. C62_different_tanru_partial concerns brivla, C62_known_partial brivla and cmevla of listed gismu and cmavo, C62_cmevla_partial cmevla with zi'evla that are accepted."
  },
  {
   "property": "C63",
   "status": "proved",
   "theorems": [
    "Jvotci.C63_gismu",
    "Jvotci.C63_five_letters",
    "Jvotci.C63_words_false"
   ],
   "note": "C63_words_false: with cmavo or zi'evla the lujvo can be longer than the tanru (se mlatu, spageti mlatu)."
  },
  {
   "property": "C64",
   "status": "proved",
   "theorems": [
    "Jvotci.C64_cmavo",
    "Jvotci.C64_cll",
    "Jvotci.C64_option"
   ],
   "note": "README lists mlatyfa'u'u under this option as LUJVO; analyse_brivla says EXTENDED_LUJVO, and so does the theorem."
  },
  {
   "property": "C65",
   "status": "proved",
   "theorems": [
    "Jvotci.C65_no_r_n",
    "Jvotci.C65_zihevla"
   ],
   "note": "README's sentence holds for r and n behind the first rafsi in words without y and without mz before a consonant; examples show that dumroirtobro and (with allow_mz) jairdomzga are no words at all under FORCE_Y."
  },
  {
   "property": "C66",
   "status": "proved",
   "theorems": [
    "Jvotci.C66_lujvo",
    "Jvotci.C66_one_way",
    "Jvotci.C66_extended",
    "Jvotci.C66_cmevla"
   ],
   "note": "One-syllable zi'evla, which only exp_rafsi_shapes allows, are shown like experimental rafsi, except that one at the end of the word that would be a brivla with a behind it gets a single dash (mlatystrai: mlatu, strai-)."
  },
  {
   "property": "C67",
   "status": "proved",
   "theorems": [
    "Jvotci.C67_stretches",
    "Jvotci.C67_on_their_own"
   ],
   "note": "An example proves the remaining rows of the table in differences.md."
  },
  {
   "property": "C68",
   "status": "proved",
   "theorems": [
    "Jvotci.C68_shape",
    "Jvotci.C68_valid",
    "Jvotci.C68_letters",
    "Jvotci.C68_gismu_shape",
    "Jvotci.C68_strip"
   ],
   "note": ""
  },
  {
   "property": "C69",
   "status": "proved",
   "theorems": [
    "Jvotci.C69_gismu_or_lujvo",
    "Jvotci.C69_agrees",
    "Jvotci.C69_exceptions",
    "Jvotci.C69_slinkuhi",
    "Jvotci.C69_slinkuhi_answers",
    "Jvotci.C69_any_cmavo"
   ],
   "note": ""
  },
  {
   "property": "C70",
   "status": "proved",
   "theorems": [
    "Jvotci.C70_nearly_shortest",
    "Jvotci.C70_shortest",
    "Jvotci.C70_false_many"
   ],
   "note": "C70_false_many: with 58 components get_lujvo returns a lujvo of 175 letters although there is one of 174."
  },
  {
   "property": "C71",
   "status": "proved",
   "theorems": [
    "Jvotci.C71_analyse_depth",
    "Jvotci.C71_get_lujvo_depth",
    "Jvotci.C71_slinkuhi_depth",
    "Jvotci.C71_three_not_enough"
   ],
   "note": ""
  },
  {
   "property": "C72",
   "status": "proved",
   "theorems": [
    "Jvotci.C72_same_search",
    "Jvotci.C72_linear",
    "Jvotci.C72_get_lujvo"
   ],
   "note": ""
  },
  {
   "property": "C73",
   "status": "proved",
   "theorems": [
    "Jvotci.C73_bound",
    "Jvotci.C73_too_many",
    "Jvotci.C73_gismu",
    "Jvotci.C73_analyse"
   ],
   "note": ""
  },
  {
   "property": "C74",
   "status": "proved",
   "theorems": [
    "Jvotci.C74_dictionary",
    "Jvotci.C74_dictionary_count",
    "Jvotci.C74_js_tests",
    "Jvotci.C74_empty_word",
    "Jvotci.C74_quotes"
   ],
   "note": ""
  },
  {
   "property": "C75",
   "status": "partial",
   "theorems": [
    "Jvotci.C75_again_partial",
    "Jvotci.C75_false"
   ],
   "note": "C75_again_partial: exp_rafsi_shapes off (and with allow_mz no on-glide behind y'); then get_lujvo has a word to choose from that scores no more, the word itself if it has no r or n further on. Only a word that begins with CVV or CV'V directly followed by another rafsi may score less, by the hyphen get_lujvo writes there. C75_false: the full statement is false of the code, default options. nautsi'yva'arge (nanmu tsiju va'arge) is accepted and scores 14944, get_lujvo makes naurtsi'yva'arge, 15944: combine leaves the r out only if the tanru has two components (jvozba.py), analyse_brivla does not want it before CCV'y. skordisyva'arga is accepted, get_lujvo raises NoLujvoFoundError for its components."
  },
  {
   "property": "C76",
   "status": "partial",
   "theorems": [
    "Jvotci.C76_again_partial",
    "Jvotci.C76_false"
   ],
   "note": "C76_again_partial: exp_rafsi_shapes off (and with allow_mz no on-glide behind y'), and under STANDARD not a word that begins with CVV or CV'V, 'y and a zi'evla. Then get_lujvo has a cmevla to choose from that scores no more, the word itself if it has no r or n and does not begin with CVV'y; what it returns scores no more; and it returns one unless it raises IndexError at a zi'evla without its last vowel (see C53). C76_false: the full statement is false of the code, default options: va'a'ydjarspaget scores 16035 and becomes va'arga'ydjarspaget, 19094; goi'ydjarspaget is accepted, get_lujvo raises NoLujvoFoundError for its components."
  },
  {
   "property": "C77",
   "status": "proved",
   "theorems": [
    "Jvotci.C77_analyse",
    "Jvotci.C77_analyse_written",
    "Jvotci.C77_get_lujvo",
    "Jvotci.C77_get_veljvo",
    "Jvotci.C77_score_lujvo",
    "Jvotci.C77_is_slinkuhi"
   ],
   "note": "C77_analyse (47 calls for each letter and 52), C77_analyse_written (100 (n + 1) for n characters as written), C77_get_lujvo, C77_get_veljvo, C77_score_lujvo, C77_is_slinkuhi. Each also says that the functions with the counter (CountCalls.lean) give the answers of the model. The constants are not the best possible; the examples show that the number does grow with the word."
  },
  {
   "property": "C78",
   "status": "proved",
   "theorems": [
    "Jvotci.C78_analyse_brivla",
    "Jvotci.C78_words",
    "Jvotci.C78_is_brivla",
    "Jvotci.C78_get_veljvo",
    "Jvotci.C78_pinned",
    "Jvotci.C78_index_error"
   ],
   "note": "C78_analyse_brivla, C78_is_brivla, C78_get_veljvo: same result or exception of the same name unless Python raises IndexError. C78_words says it of the word. C78_pinned: the same for the Python code without the import, where it does not raise NameError. C78_index_error shows what JavaScript does on words for which Python raises IndexError. The JavaScript package is modelled in Js.lean from its own text."
  },
  {
   "property": "C79",
   "status": "partial",
   "theorems": [
    "Jvotci.C79_get_lujvo_partial",
    "Jvotci.C79_words_partial",
    "Jvotci.C79_score_lujvo_partial",
    "Jvotci.C79_false",
    "Jvotci.C79_agree_partial",
    "Jvotci.C79_no_dashes_partial"
   ],
   "note": "False of the code as a whole (C79_false): with exp_rafsi_shapes the two make different words of bangu -ie'o-; scoreLujvo adds 1100 for a hyphen where score_lujvo adds 1000; Python and JavaScript differ in six characters on what separates words. Proved: C79_get_lujvo_partial, all tanru and options but exp_rafsi_shapes; C79_words_partial, all options if each component between dashes is a CLL rafsi or a word; C79_score_lujvo_partial, the exact difference of the scores (100 for each hyphen y, n, r) and the same exceptions; C79_agree_partial and C79_no_dashes_partial say of the words when Python raises no IndexError."
  },
  {
   "property": "C80",
   "status": "proved",
   "theorems": [
    "Jvotci.C80_analyse",
    "Jvotci.C80_is_brivla",
    "Jvotci.C80_get_lujvo",
    "Jvotci.C80_no_type_error",
    "Jvotci.C80_type_error"
   ],
   "note": "All strings, tanru and options. TypeError of getLujvo does occur for one word, and with expRafsi for -st- klama (C80_type_error)."
  },
  {
   "property": "C81",
   "status": "proved",
   "theorems": [
    "Jvotci.C81_round_trip",
    "Jvotci.C81_parse",
    "Jvotci.C81_says",
    "Jvotci.C81_order",
    "Jvotci.C81_apply_flags",
    "Jvotci.C81_apply_parse",
    "Jvotci.C81_apply_display",
    "Jvotci.C81_apply_append",
    "Jvotci.C81_apply_swap",
    "Jvotci.C81_apply_count",
    "Jvotci.C81_apply_last",
    "Jvotci.C81_display",
    "Jvotci.C81_all"
   ],
   "note": "The settings of the Rust crate only; all strings and settings."
  },
  {
   "property": "C82",
   "status": "partial",
   "theorems": [
    "Jvotci.C82_before_y_partial",
    "Jvotci.C82_before_y_short",
    "Jvotci.C82_vowel_before_y",
    "Jvotci.C82_false"
   ],
   "note": "As stated it is false: three or more CVV or CV'V before 'y are accepted, e.g. jaibaibai'ymle (C82_false). C82_before_y_partial says that this is the only exception; C82_before_y_short has the claim in full for at most nine letters before the y, C82_vowel_before_y for a vowel directly before it."
  },
  {
   "property": "C83",
   "status": "proved",
   "theorems": [
    "Jvotci.C83_joined",
    "Jvotci.C83_not_slinkuhi",
    "Jvotci.C83_zihevla",
    "Jvotci.C83_two"
   ],
   "note": "All sequences and options. C83_zihevla has no condition about slinku'i; C83_joined covers the rest (only a stem at the beginning) with that condition, which is needed (slatlatygerku)."
  },
  {
   "property": "C84",
   "status": "proved",
   "theorems": [
    "Jvotci.C84_get_lujvo",
    "Jvotci.C84_words",
    "Jvotci.C84_one_word",
    "Jvotci.C84_get_veljvo",
    "Jvotci.C84_sessions",
    "Jvotci.C84_raised"
   ],
   "note": "C84_raised has a tanru for each exception. C84_words and C84_get_veljvo are for the program with the import in place; what the pinned commit does instead is C34. C84_sessions narrows the exceptions of C50."
  },
  {
   "property": "C85",
   "status": "proved",
   "theorems": [
    "Jvotci.C85_same",
    "Jvotci.C85_shape",
    "Jvotci.C85_odd_shape",
    "Jvotci.C85_rafsi",
    "Jvotci.C85_score",
    "Jvotci.C85_cluster",
    "Jvotci.C85_forms"
   ],
   "note": "All strings. Exact: each difference is an iff with a small specification (SpecRsShape.lean), and has a witness. The Rust crate is modelled for ASCII text; its word analysis is modelled only as far as C86 needs."
  },
  {
   "property": "C86",
   "status": "proved",
   "theorems": [
    "Jvotci.C86_same",
    "Jvotci.C86_slinkuhi"
   ],
   "note": "Compares with the program with the missing import in place. Components that one of the versions takes for a brivla other than a gismu are not covered, nor are experimental rafsi: analyze_brivla and check_zihevla_or_rafsi of the crate are parameters of the model. The bound on the number of components is needed: scores in Rust start from i32::MAX."
  },
  {
   "property": "C87",
   "status": "proved",
   "theorems": [
    "Jvotci.C87_reading",
    "Jvotci.C87_get_lujvo",
    "Jvotci.C87_cut",
    "Jvotci.C87_lookup"
   ],
   "note": "For the program with the missing import in place, and ASCII text. The bounds (60000 words, 180000 letters) come from the scores in Rust, which are i32. Words that one of the versions takes for a brivla other than a gismu are not covered, as in C86."
  },
  {
   "property": "C88",
   "status": "proved",
   "theorems": [
    "Jvotci.C88_gismu",
    "Jvotci.C88_lujvo",
    "Jvotci.C88_get_veljvo",
    "Jvotci.C88_score"
   ],
   "note": "For the program with the missing import in place. tools.rs:412-666 (zi'evla, experimental rafsi) is a parameter that can give any type but GISMU and LUJVO. get_veljvo is compared only if each rafsi belongs to a word: otherwise it asks is_brivla about the rafsi, which needs that parameter."
  },
  {
   "property": "C89",
   "status": "proved",
   "theorems": [
    "Jvotci.C89_same",
    "Jvotci.C89_accepted"
   ],
   "note": "For the program with the missing import in place. tools.rs:424-666 (words with y that are no CLL lujvo) is a parameter, as is what the tanru functions take from other modules. The recursion of the Rust functions is limited by numbers; the theorem holds for all numbers above the length of the word."
  },
  {
   "property": "C90",
   "status": "proved",
   "theorems": [
    "Jvotci.C90_lujvo",
    "Jvotci.C90_words_without_y",
    "Jvotci.C90_is_brivla"
   ],
   "note": "For the program with the missing import in place. tools.rs:424-666 (words with y that are no CLL lujvo) is a parameter that is never reached from here. The recursion of the Rust functions is limited by a number that can be as large as one likes."
  },
  {
   "property": "C91",
   "status": "proved",
   "theorems": [
    "Jvotci.C91_refused",
    "Jvotci.C91_get_lujvo"
   ],
   "note": "For the program with the missing import in place, and ASCII text. This removes from C86 and C87 the hypothesis about what the crate's analysis says of the components. Zi'evla and lujvo as components are not covered."
  },
  {
   "property": "C92",
   "status": "proved",
   "theorems": [
    "Jvotci.C92_gismu",
    "Jvotci.C92_read_back",
    "Jvotci.C92_round_trip"
   ],
   "note": "For ASCII text. tools.rs:424-666 (words with y that are no CLL lujvo) is a parameter that is never reached from here. The hypotheses about shared stems are those of C43, which is false without them. The difference in scores is a difference in the code: score_lujvo counts 1100 for each of y, n and r, the search 1000 for n and r."
  },
  {
   "property": "C93",
   "status": "proved",
   "theorems": [
    "Jvotci.C93_best",
    "Jvotci.C93_nothing"
   ],
   "note": "For ASCII text. What a lujvo for a tanru is comes from SpecLujvo.lean (LujvoOf), as in C25. The lujvo excluded by the second part have fewer than 10^96 letters."
  },
  {
   "property": "C94",
   "status": "proved",
   "theorems": [
    "Jvotci.C94_cmevla",
    "Jvotci.C94_without_y",
    "Jvotci.C94_get_veljvo",
    "Jvotci.C94_score",
    "Jvotci.C94_read_back",
    "Jvotci.C94_round_trip"
   ],
   "note": "For ASCII text. tools.rs:424-666 (words with y that are not CLL lujvo or cmevla) is a parameter that is never reached from here. The converse, that the Rust crate takes no other word without y for a cmevla, is C95."
  },
  {
   "property": "C95",
   "status": "proved",
   "theorems": [
    "Jvotci.C95_same",
    "Jvotci.C95_refused",
    "Jvotci.C95_cmevla",
    "Jvotci.C95_get_veljvo"
   ],
   "note": "For the program with the missing import in place. tools.rs:424-666 (words with y that are no CLL lujvo or cmevla) is a parameter that is never reached from here. This is C89 without its condition on the last letter. That mz needs its condition for words that end in a vowel is shown beside C89."
  },
  {
   "property": "C96",
   "status": "proved",
   "theorems": [
    "Jvotci.C96_made_alike",
    "Jvotci.C96_undone_by_all",
    "Jvotci.C96_different",
    "Jvotci.C96_read_alike",
    "Jvotci.C96_lujvo"
   ],
   "note": "For the program with the missing import in place, and for ASCII text in the Rust crate. The hypotheses about shared stems are those of C43, which is false without them. The white space must be white space in all three languages. Zi'evla and lujvo as components are not covered."
  },
  {
   "property": "C97",
   "status": "proved",
   "theorems": [
    "Jvotci.C97_spell",
    "Jvotci.C97_spell_own",
    "Jvotci.C97_last_letter",
    "Jvotci.C97_kinds",
    "Jvotci.C97_gismu_iff"
   ],
   "note": "For ASCII text. With Verif/RsY.lean analyze_brivla of the Rust crate is modelled whole, and these theorems are about it and not about a comparison with the Python version. What get_rafsi_list_list calls is a parameter; the limits of recursion are arbitrary."
  },
  {
   "property": "C98",
   "status": "proved",
   "theorems": [
    "Jvotci.C98_same",
    "Jvotci.C98_refused",
    "Jvotci.C98_lujvo",
    "Jvotci.C98_only_lujvo",
    "Jvotci.C98_cmevla"
   ],
   "note": "For ASCII text, and the Python program with the missing import in place. C88, C94 and C95 for the model in which no part of analyze_brivla is left open. Extended lujvo are not compared."
  },
  {
   "property": "C99",
   "status": "partial",
   "theorems": [
    "Jvotci.C99_panics",
    "Jvotci.C99_no_panic_partial"
   ],
   "note": "False in general: C99_panics proves that the crate panics on bily'aa (an unwrap of split_vowel_cluster, tools.rs:455), where the Python version raises DecompositionError. C99_no_panic_partial is the claim for words without y."
  },
  {
   "property": "C100",
   "status": "proved",
   "theorems": [
    "Jvotci.C100_consonant",
    "Jvotci.C100_glides"
   ],
   "note": "For ASCII text. C100_glides proves that the exception is needed."
  },
  {
   "property": "C101",
   "status": "proved",
   "theorems": [
    "Jvotci.C101_written",
    "Jvotci.C101_error"
   ],
   "note": "For ASCII text. Components given to get_lujvo_from_list as they are; get_lujvo normalises them first (C87)."
  }
 ]
}