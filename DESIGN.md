# Design

A Lean 4 model of the Python package `/repo/py/latkerlo_jvotci`, and proofs of the properties in
`properties.jsonl` about it.

## What is modelled

| Python | Lean | remarks |
|---|---|---|
| built-in `str`, slices, indexing, `split`, `strip`, `lower`, exceptions | `Verif/Py.lean` | strings are lists of characters, exceptions are values of `Err` |
| the regular expressions of `tarmi.py` | `Verif/Regex.lean` | a backtracking matcher for the fragment used |
| `data.py` | `Verif/Data.lean` | all tables, transcribed by script |
| `rafsi.py` | `Verif/Rafsi.lean` | all 2021 entries, transcribed by script |
| `tarmi.py` | `Verif/Tarmi.lean` | every function |
| `jvozba.py`, `normalise` | `Verif/Jvozba.lean`, `Verif/Core.lean` | every function |
| `tools.py`, `katna.py` | `Verif/Core.lean` | every function |
| the loops under `if __name__ == "__main__"` in `jvozba.py` and `katna.py` | `Verif/Cli.lean` | what is printed is a list of events: prompts, results, exceptions |
| `make_rafsi_list.py` (at the root of the repository) | `Verif/MakeRafsi.lean` | from the parsed export to the table; not the download, the XML parser and the writing of files |
| `make_dictionary_test_list.py`, `make_js_tests.py` | `Verif/MakeTests.lean` | from the parsed input to the lists and the text; not the download and the XML, JSON and TSV parsers |
| `js/src/tarmi.ts`, `tools.ts`, `katna.ts`, `jvozba.ts` (the JavaScript version) | `Verif/Js.lean` | every function of the API and what it calls, from the JavaScript text; `data.ts` and `rafsi.ts` have the entries of `data.py` and `rafsi.py` |
| `rs/src/tarmi.rs`, `rs/src/jvozba.rs`, part of `rs/src/katna.rs` | `Verif/Rs.lean` | the helper functions, `get_lujvo_from_list` and what it calls, except for the rest of `analyze_brivla` and `check_zihevla_or_rafsi`, which are parameters (`RsRest`); for ASCII text |
| `rs/src/jvozba.rs`, `katna.rs`, `tools.rs`: functions on tanru and words | `Verif/RsApi.lean`, `Verif/RsAnalyse.lean` | `analyze_brivla` up to its call of `jvokaha` (tools.rs:412-666 is a parameter, `RsOther`), `get_veljvo`, `score_lujvo`, `process_tanru`, `get_lujvo`, `get_lujvo_with_analytics`, `is_gismu_or_lujvo`, `search_selrafsi_from_rafsi`, `get_rafsi_indices`; for ASCII text |
| `rs/src/tools.rs`: `check_zihevla_or_rafsi`, `analyze_brivla` for words without y; `tarmi.rs`: `is_cmavo_compound` | `Verif/RsCheck.lean` | tools.rs:141-334, 404-423; tools.rs:424-666 (words with y) is a parameter |
| `rs/src/tools.rs`: `analyze_brivla` for words with y, and so the whole function | `Verif/RsY.lean` | tools.rs:424-666 |
| `rs/src/tarmi.rs` (the Rust version): settings | `Verif/RsSettings.lean` | `Settings`, `Display`, `FromStr`, `apply_flags`, `SETTINGS_ITERATOR` |
| `examples/py_example.py` | `Verif/Props/TestLists.lean` | its calls and their results, as examples |

Every definition carries the file and lines it models. The API (`latkerlo_jvotci/__init__.py`) is
`getVeljvo`, `scoreLujvo`, `getLujvo`, `getLujvoWithAnalytics`, `isBrivla`, `analyseBrivla`,
`getRafsiIndices`.

Not modelled: exception messages; arguments of
wrong types (`TypeError`); option strings other than the documented ones; `str.lower` of non-ASCII
characters other than the two that produce ASCII letters (the results are not Lojban letters in either
case); lone surrogates; `$` matching before a final newline in `strip_hyphens` (no such string reaches
it); Python's own recursion limit and memory; UTF-16 units and doubles in the JavaScript version; the Rust port except for its settings, its helper functions, its lujvo making and cutting (C86, C87) and `analyze_brivla` for gismu, lujvo and words without y (C88 to C91) and for cmevla (C94, C95).

### The model on the repository's test lists

`conformance/run.py` runs the compiled model (`linked`) on the lists in `/repo/tests`, the way `py/tests` runs the code:
158600 calls, all options for the two hand-written lists. 240 answers differ from what the lists expect, all for two
reasons that lie in the code, not in the model: `klingonygu'e` is accepted (and made), as recorded for the Rust port in
`rs/test_diagnostics/bad.txt`; and the test of jvozba.py:329-331 never applies, because the slice it looks at is empty
(`lujvo[i:i]`; the ports have `lujvo[i:j]`), so with experimental rafsi `bau'y'i'e` and `banyie'o` are made of
`bangu -i'e-` and `bangu -ie'o-`. This is a test of the model, not a proof.

### Two programs: `Build.pinned` and `Build.linked`

`jvozba.py:501` calls `is_slinkuhi`, but `jvozba.py` neither defines nor imports that name (the JS and
Rust ports do). At the pinned commit this line raises `NameError` whenever it is reached, i.e. whenever
`get_lujvo` with `generate_cmevla=False` has found a lujvo. The model has a parameter `b : Build`:
`pinned` is the code as it is, `linked` is the code with the missing import. Theorems that hold for both
are stated for both; C34 says what exactly is lost at the pinned commit, and that the import changes
nothing except calls that raise `NameError`.

### Recursion

The Python functions `analyse_brivla`, `is_brivla`, `check_zihevla_or_rafsi`, `is_slinkuhi`, `jvokaha`,
`get_rafsi_list_list`, `get_lujvo_from_list` call each other. In the model each takes a record `R : Rec` of
the functions it calls back into; `recN b n` ties the knot `n` times, and at depth 0 a call gives the
artificial error `Err.fuel`. The API functions use a depth that grows with the input. C14 proves that
`Err.fuel` never comes out and that the API functions satisfy the recursive equations of the program (no
budget in sight), so the budget is not part of what the theorems say. C71 proves that a depth of seven is
enough for every input.

### Bounds on the length

`jvozba.py:492` starts the search from the score `10**100`, and `analyse_brivla` and `is_slinkuhi` compare with
what the search makes. For words and tanru so long that a score could reach this number the code behaves
differently (C73 says how), so theorems in which a search must succeed have a hypothesis such as
`w.length < 10 ^ 96`. This is a property of the code, not of the proofs: no theorem bounds a size for any other
reason. Where the exponent is smaller (93, 90), it is because the word is put together with others, or made
longer, before it is searched for.

## Trusted base

* Lean's kernel (4.33.0) and the axioms `propext`, `Classical.choice`, `Quot.sound`; no others. No
  `native_decide`, no `bv_decide`, no `sorry`. `decide +kernel` is used over whole finite tables and for
  concrete witnesses; it is checked by the kernel.
* The reading of Python that the model embodies. It was compared, outside the proofs, with the
  expectations in `/repo/tests` (the model was compiled and run, the Python was not): of 158,600
  (word, options, expected result) triples the `linked` model meets all but three groups, and in each of
  these reading the Python shows the model is right about the code: `klingonygu'e` (listed as a known
  failure in `rs/test_diagnostics/bad.txt`), `bangu -i'e-` and `bangu -ie'o-` (the check at
  `jvozba.py:329-331` slices the empty string and never fires).

## Layout of the proofs

* `Verif/Spec.lean`: the vocabulary of the statements, independent of the model's functions.
* `Verif/SpecLujvo.lean`: what a lujvo of a tanru is and what it scores, without the search (C25, C26).
* `Verif/SpecPieces.lean`: which sequences of rafsi and hyphens are words (C37, C41, C42).
* `Verif/SpecZihevla.lean`: what a zi'evla sounds like (C45).
* `Verif/SpecExtended.lean`: the parts of an extended lujvo (C47).
* `Verif/SpecCli.lean`: what the commands typed in a session set the options to (C50).
* `Verif/SpecOptions.lean`: which options relax which (C52, C55).
* `Verif/SpecTanru.lean`: the components a tanru may have (C53 to C57).
* `Verif/SpecMake.lean`: what a dictionary export assigns and mentions (C59).
* `Verif/SpecTests.lean`: a reader of JavaScript array literals (C74).
* `Verif/SpecCmavo.lean`: the strings shaped like a cmavo (C64).
* `Verif/SpecVeljvo.lean`: how the components of a word are shown (C30, C66).
* `Verif/SpecCmevla.lean`: the two faults of a made cmevla that is not accepted (C38).
* `Verif/Lemmas/*.lean`: helper lemmas.
* `Verif/Props/*.lean`: the property theorems `C01_…` and, beside each, an `example` showing that its
  hypotheses are met by a concrete case.
* `seeded/LOG.jsonl`: the wrong programs the theorems were tried against, one edit of the model per
  line. `directly_failing` lists the lemmas and theorems whose proofs the edit breaks;
  `theorems_failed` lists the claims whose proofs use one of them. A run replaces each broken proof
  and builds on until a theorem of the claim named in `claim` is reached through a lemma about the
  edited function, then stops, so both lists are lower bounds. `note` says what happened where no
  theorem of that claim failed: an edit without effect, an edit repeated under another id, or a
  claim that was missing and then added (`tightened`).

## How each property is proved

* **C01** analysis = concatenation. Loop invariant of `jvokaha_2` (pieces so far ++ rest = input) and of
  the y-part loop (pieces so far ++ pending hyphen = parts so far joined with `y`). Holds for any `R`.
* **C02, C03, C04, C16** case analysis of `analyse_brivla`, for any `R`; C03 against an independent
  definition of the gismu form.
* **C05, C06, C09, C10, C11, C12** invariants of `jvokaha_2` and of the part loop; zi'evla by an invariant of
  the scanning loop.
* **C07, C08** the same invariants, against the phonotactic rule rather than the table (C31).
* **C13** induction over the list of pieces.
* **C14** a measure argument: `is_slinkuhi` nests at most three deep, because the word it rebuilds starts
  with `to`; `analyse_brivla` calls itself on strictly shorter words.
* **C15** false of the code: witnesses `""`, `"ba'yyla"`, `"laty'aoa"`, `"smatyspageir"`; partial
  theorems name the exceptions that can occur and confine them to words of four forms; every access of every function is
  followed to show that it is in range elsewhere (`Lemmas/LoneR`, `Clean`, `CleanY`).
* **C17, C18** equality of normal forms; `split` of a joined string.
* **C19, C20** simulation between two runs with different options, part by part. The states of the two runs of C19
  differ at most in a number of consonants that is no longer looked at. The exceptions can differ
  (`C19_exceptions_differ`: `bajyiastu'yyla`).
* **C21–C24, C27** invariants of the search; all entries of the candidate table satisfy them.
* **C25, C26** the table holds, per key, a minimum over all partial choices: an exchange argument (the
  result of `combine` depends on the partial lujvo only through the key).
* **C28, C29, C31** whole-table checks by kernel computation, lifted to all entries/characters.
* **C30** induction over the pieces; that it returns follows from C15 for the pieces, which have no `y`.
* **C32** invariant of the splitting loop.
* **C33** mixed-radix numeration.
* **C34** no success path without `NameError`; simulation between the two programs.
* **C35** false of the code: a `y` hyphen counts 1000 points in `score_lujvo` and 1100 in the search (`C35_false`), and
  the tie-break is applied to the whole word in one and to the first two components in the other (`C35_false_tie`). The
  exact difference follows from C24, C44, C01 and C13 for every word read back as made, which is C38.
* **C36** false with experimental rafsi (`baibaibai'ybailaty'ai`). Without them: lujvo by C41, zi'evla by C39, words with
  y by an invariant of the loop over the parts (`has_cluster` means that the text so far has a cluster or ends in a
  consonant). With any options a weaker statement holds: two consonants meet, or a consonant stands before a y.
* **C37** completeness of `jvokaha_2` for locally well-formed sequences (`Spec.Reading`, beside the theorems): no
  other rafsi and no hyphen can be taken at the front of a reading. Uniqueness follows.
* **C38** false in several ways (witnesses: `-zii- -sfo-`; `mlatu -iai-` with experimental rafsi; `baiklamamzu kerlo` with `allow_mz`; the cmevla of
  `frica notci e'ailka tengu` and of `kriksav- tivni`). Partial theorems: the
  made word is the canonical one of its rafsi (C25, C41) when no rafsi has an improper diphthong and no gismu stands
  whole before the end. For gismu and cmavo the former is a whole-table check and the latter an exchange argument: cutting
  off the last vowel gives a cheaper legal lujvo. With zi'evla among the parts, unless they have mz and
  `allow_mz` is set (witness: `baiklamamzu kerlo`): the slots of the search are put together into parts between the `y`s, each of which is
  read as made (C37, C51), the whole is an extended lujvo by C47, and a word that falls apart would be a tosmabru.
  For cmevla with zi'evla (`Lemmas/GluedCm.lean`) the parts of the cmevla are those of the lujvo with `y` and `bai` after it, so the
  same lemmas apply; which of them are accepted is an equivalence, stated with the two faults of `SpecCmevla.lean`.
  That `is_slinkuhi` raises no `IndexError` for them is `Lemmas/NoIndex.lean`: the component that would cause it makes `get_lujvo` raise.
* **C39** invariant of the scanning loop.
* **C40** false (`..a`); partial theorem.
* **C41, C42** `jvokaha` builds the best lujvo of the rafsi it has cut off and compares. The rafsi determine the
  cheapest legal hyphens (`Canon`), by C25 the search returns that word, it is never a slinku'i (an induction on the
  chain of joints), and the comparison tolerates exactly r and n after CVV (`Ext`).
* **C43** false for gismu that share their first four letters with another (`datru mlatu` → `datrymlatu` → `datro mlatu`);
  partial theorem for the listed gismu and cmavo other than 17 named words, from C38, C30 and whole-table checks; and with
  zi'evla among them, from the hyphens the search puts behind a whole word and behind a cut one;
  for cmevla with zi'evla the same whenever the cmevla is accepted (`Props/RoundTripCmevla.lean`; C62 and C35 likewise).
* **C44** the pieces of an accepted word have no hyphen letters at their ends (induction over the loop), so the sum of
  `score` over the pieces is a sum over the letters and the shapes.
* **C45** the scan finds every run of consonants and vowels, so it succeeds exactly if each satisfies its condition; the
  regular expression for clusters in the middle is analysed once and for all; the number of syllables is unique. The code
  tests tails of words of more than two syllables, in front of consonants and glides; that these are the tails behind a
  vowel is proved separately (`Lemmas/Tails`). Found on the way: with `allow_mz` a cluster like `mzb` is rejected
  although `mzbr` is accepted (`MiddleCluster`, last clause), and `is_brivla` is called on tails without `allow_mz`.
* **C46** false of the code for words with y (`bastankarybroda` and `stankarybroda` are both accepted, so
  `ba stankarybroda` is ambiguous; `C46_y_false`) and with `allow_mz` (`obamzu`, `bamzu`). Partial theorem: every word
  without y, every option but `allow_mz`. Gismu by their form; zi'evla from C45; lujvo from C41: what can be cut off is
  the CV of a CVC rafsi, and if the rest is read as rafsi, each rafsi of the rest crosses a joint of the word, which is
  what the tosmabru test excludes (`chain_falls`); if it is a zi'evla, writing `to` for the CV gives a lujvo, which the
  slinku'i test excludes.
* **C47** each pass of the loop succeeds exactly if the part satisfies `PartOk` (`ExtOne`), which is shown branch by
  branch: the leading apostrophe (`ExtPart`), rafsi (`ExtKinds`, with C37 for the cutter and C41, C42 for the words the
  tosmabru and stem tests build), zi'evla and experimental rafsi (`ExtZih`, `ZihExp`, with the scan of C45). The
  variables of the loop are functions of the parts already seen (`After`). Found on the way: an experimental rafsi of
  the shape CVV is counted twice by the `consonants` option, and a word that begins CCV'y is rejected even under ALLOW_Y
  and FORCE_Y because of the `NotBrivlaError` in the cutter.
* **C48** from C03, C41, C45 and C47.
* **C49** the loop over the parts is that of C47 with `PartOk` for cmevla; the cutter raises nothing but what
  `analyse_brivla` catches (`jvokaha_index`), so `IndexError` can only come from the slinku'i test.
* **C50** by induction over the lines, with the relation between the words of the commands so far and the options as
  invariant; the exceptions from C15's bounds. Both loops can crash (`C50_sessions_can_crash`).
* **C51** a sequence of rafsi that is no lujvo lacks a hyphen after its first rafsi or falls apart; in both cases what is
  left behind the first syllable or two is a brivla (induction over the sequence, `Lemmas/Unread`). With `allow_mz` the
  code tests the tails without the option, and `baiklamamzu` passes as a zi'evla (`C51_mz_false`); a word without mz is read
  the same way with and without the option.
* **C52** from the characterisations C03, C41, C45, C47 and C49, whose conditions are monotone in the options, except those
  that say that something is no lujvo or no brivla: there C36 (an accepted word has a cluster or a hyphen y) shows that
  the relaxed options admit no more of the words in question (`Lemmas/Relax`).
* **C53** by showing that the list of rafsi of each component is built without an exception (`SpecTanru.lean` says how a
  component may be spelled), that the search over two or more lists raises nothing, and C25. False as stated: only the best
  candidate is tested for being a slinku'i, and `get_lujvo` gives up if it is one. For words and CLL rafsi it never is
  (`Lemmas/FoundWords`): a slinku'i has no 'y, so only the last component can be a zi'evla, and what follows the last y would
  be a zi'evla that can be read as rafsi, against C51.
* **C54** by writing down a lujvo: every gismu but the last without its last vowel, and with y; every zi'evla but the last
  with 'y. Then C53.
* **C55** from C52 and from C53: relaxing the options keeps every rafsi of a component and every legal sequence of rafsi,
  so the old word is a candidate under the new options, and C25 says that the word returned is no worse. The index error
  of C53 does not depend on these options.
* **C56** from C03, C41, C42, C45, C47 and C49: every condition of those specifications is shown not to depend on the option if
  there is no mz in the word, except that a y between m and z is needed or not. A lujvo that loses its status because of that
  y is put together again from its rafsi and satisfies the specification of extended lujvo (the lemma behind C38).
* **C57** like C55, with C56 in the place of C52: components that are words stay words, and rafsi and joints that are allowed stay
  allowed.
* **C58** from C03, C41, C45 and C47, by counting: every rafsi has a consonant and every rafsi but CVV and CV'V two, a zi'evla has
  a cluster, and an experimental rafsi is never of the shape CVV, for which the code would count two. False in one point
  of the README (witness `su'yiu`: with ONE_CONSONANT the consonant may be the first letter).
* **C59** `make_rafsi_list.py` as three folds over a list of entries (`Verif/MakeRafsi.lean`), with the order in which Python
  lists a set as a parameter. Proof by invariants of the folds: what the two dictionaries and the set of assigned rafsi
  contain after a prefix of the entries. The regular expression for rafsi in the notes is modelled by a function that finds matches from the
  left; soundness by induction, completeness for mentions that no earlier match can overlap. False variants with
  witnesses: two entries for a word (the second clears the first), `-zuc-/-zu'a-` (the second is not found), two entries that propose
  the same rafsi (both get it).
- **C60** (`Props/Remade.lean`, lemmas in `Lemmas/Remade.lean`). `lujvoPieces_made` gives the canonical hyphens of the pieces of a lujvo.
  Each component that `get_veljvo` shows for a piece has that piece as a rafsi (`format_names`), and is a word or a rafsi of which
  `words_found` (C53) finds a lujvo; so the word itself without superfluous hyphens is a candidate of the search, and C25 gives a best
  one. The two scores are compared by `ext_cost`. False variant with a witness: by `score_lujvo` alone.
- **C61** (`Props/Remade.lean`, lemmas in `Lemmas/Stable.lean`). `Came` describes exactly what `get_veljvo` shows for a rafsi; it is
  a function of the rafsi (`came_det`). Whatever rafsi the search chooses for such a component is shown as the same component
  (`came_usable`), except for `oddWords`; the word is read back by `read_back_made` (C38). Partial; false for broda and brode, with witnesses.
- **C62** (`Props/Injective.lean`). From C43: the tanru is what `get_veljvo` shows of the word. Partial, as C43 is; false for two gismu
  with the same first four letters, with a witness.
- **C63** (`Props/Length.lean`, lemmas in `Lemmas/Length.lean`). The best candidate has the canonical hyphens of its rafsi (`best_made_fst`), and
  no rafsi with its canonical hyphen has more than five letters, except CV'V'y at the beginning under FORCE_Y. If there is one and the rest is not
  shorter for it, every other rafsi is four letters with y, and the word with the first four letters of the first gismu and y in
  its place would be better.
- **C64** (`Props/Experimental.lean`, spec in `SpecCmavo.lean`, lemmas in `Lemmas/Cmavo.lean` and `Lemmas/CmavoWord.lean`). By the characterisation
  of extended lujvo (C47). A cmavo has one consonant at most, so it has no consonant cluster and is no zi'evla, and the only rafsi with one consonant
  are CVV and CV'V. What is left of the pieces is the experimental rafsi. README gives the type LUJVO to mlatyfa'u'u; the code and the theorem say
  EXTENDED_LUJVO.
- **C65** (`Props/ForceY.lean`, lemmas in `Lemmas/Blocks.lean`, `Lemmas/RafsiBlocks.lean`, `Lemmas/ForceYWords.lean`). The pieces of a lujvo without y
  are built up, from the back, as a sequence of consonants, vowels and closed middle parts (`Blk`), for which all of the sound rules of a zi'evla
  hold. The conditions of C45 follow: under FORCE_Y no reading begins with the first rafsi, and what is behind it begins with a pair of consonants no
  word begins with. False for an r or n that is not behind the first rafsi, and for mz before a consonant (examples beside the theorem).
- **C66** (`Props/Displayed.lean`, spec in `SpecVeljvo.lean`, lemmas in `Lemmas/Shown.lean` and `Lemmas/PartShown.lean`). The list is computed piece by
  piece, each piece with the pieces behind it. By the characterisations of C41, C47 and C49 the pieces of a word are known, and C48 tells whether a piece,
  or a piece with a behind it, is a brivla. `C66_one_way` shows that the specification leaves no choice for CLL rafsi.
- **C67** (`Props/Between.lean`). By the characterisation of C47 such a word is an extended lujvo if its parts are: each stretch is a reading, and the
  stem before them is the cluster they need. No lujvo of CLL rafsi has 'y behind another y, which excludes the other readings.
- **C68** (`Props/Helpers.lean`). By cases on the length of the string; the numbers are those of `shapeScore` (`Spec.lean`).
- **C69** (`Props/Helpers.lean`, lemmas in `Lemmas/Front.lean`). By the characterisation of what `jvokaha` accepts (C41, C42). For the other consonants
  and vowels, the first rafsi is CVC or CVCC, and every rule about lujvo depends on its last letter and its shape only.
- **C70** (`Props/Shortest.lean`, lemmas in `Lemmas/Short.lean`). By C25 the lujvo returned has the lowest score. Two rafsi of the same component
  differ by at most 82 in what shape and vowels take off (whole-table check for the listed words), a candidate has fewer y than components, and the
  tie-break counts 1. `C70_false_many` shows that some bound is needed: with batci, 56 times nazbi and bangu, one y is cheaper than 56 naz instead of zbi.
- **C71** (`Props/Depth.lean`, lemmas in `Lemmas/Depth.lean`). `recN b n` allows `n` open calls; the theorems say that from a fixed `n` on its answers are
  those of the program. A word without y calls back only to look at its suffixes up to the first cluster. All of these have the same first cluster. A suffix
  that begins with an on-glide, is looked at and is no brivla was not searched itself, because if nothing inside it is a brivla it is a zi'evla; and at most
  one consonant stands before the cluster. So a suffix that begins with a consonant needs one level more than one that needs none, an on-glide one more,
  the word one more, and a word with y one more. `C71_three_not_enough` has a word that needs four.
- **C72** (`Count.lean`, `Props/Work.lean`, lemmas in `Lemmas/Count.lean`). `Count.lean` repeats the loops of the search with a counter that goes up at every
  call of `combine`; `C72_same_search` proves that `get_lujvo` is the same with it. The table of a stage has one entry for each key, and a key is one of three
  tosmabru states, one of three consonant counts and the last letter of one of the at most eight rafsi of the component. The work of the functions that find the
  rafsi of a component and that check the result (`analyse_brivla`, `is_slinkuhi`) is not counted.
- **C73** (`Props/Sentinel.lean`). The candidate chosen at the end has a score below the initial 10^100; by C24 a word of L letters scores at least 919 L - 1,
  and a lujvo has at least one letter for each component. For gismu every stage of the search succeeds, so the only exception left is NoLujvoFoundError.
- **C74** (`Props/TestLists.lean`, model in `MakeTests.lean`, reader in `SpecTests.lean`). The dictionary script by induction on the export. For the JavaScript
  file `SpecTests.lean` has a small reader of array literals that knows nothing of the script; by induction on cells and rows it reads back what was written.
- **C75** (`Props/Again.lean`, `Lemmas/Again.lean`, `AgainTos.lean`, `AgainThin.lean`, `AgainWord.lean`, `AgainMade.lean`, `AgainGlide.lean`). False of the code, `C75_false`: a word
  beginning CVV CCV'y needs no r for `analyse_brivla`, but `combine` puts one there, so the word taken apart is better than the one made of its components; and
  some components make `get_lujvo` raise `NoLujvoFoundError`. Partial: by C66 the parts of an extended lujvo are known from what is shown; one slot is built for
  each rafsi (`Slotted`, induction on the parts and on the rafsi of a part). An r or n further on in the word is left out where `combine` would leave it out
  (`Thin`: what is left is not longer and keeps its first and last letters, vowels and y), a first part of CVC with initial pairs is treated by the tosmabru
  lemmas (`AgainTos`). The slots are `Legal`, so the word is a `LujvoOf` its components, and C25 and C53 apply. A word beginning with CVV or CV'V
  and another rafsi without a hyphen gets one there, where the full statement fails; the theorem says by how much. What is missing: on-glides behind y' if
  allow_mz is set (`AgainGlide`: otherwise there are none); experimental rafsi.
- **C76** (`Props/AgainCmevla.lean`, `Lemmas/AgainCmevla.lean`). False of the code, `C76_false`: under STANDARD `analyse_brivla` accepts
  cmevla that begin with CVV or CV'V, 'y and a zi'evla, which `get_lujvo` does not make. Proved is `C76_again_partial` for the other
  words, without experimental rafsi: the slots of C75, the last without its y, make a cmevla that scores no more. The hyphen behind the
  first CVV or CV'V falls away, because `combine` writes none in a cmevla. That `get_lujvo` returns comes from C53: of its exceptions
  only the IndexError is left.
- **C77** (`CountCalls.lean`, `Props/Calls.lean`, lemmas in `Lemmas/Calls.lean`). `CountCalls.lean` repeats every function that leads back to
  `analyse_brivla` or `is_slinkuhi`, with a counter of the calls of these two at any depth. One relation (`Costs`) carries through the functions that the answer
  is that of `Core.lean` and that the counter stays within a bound. The search for brivla inside a word goes outwards from the first cluster; as for C71, a
  suffix that begins with an on-glide and is no brivla is not searched itself, at most one suffix begins with a consonant, and the search ends at the first
  brivla. So the sum over all suffixes, and over the parts of a word with y, is linear.
- **C78** (`SpecJs.lean`, `Props/Js.lean`, lemmas in `Lemmas/Js*.lean`). `Js.lean` models the JavaScript version from its own text. There a
  letter beyond the end of a word is `undefined`, which is no vowel and no consonant but raises nothing; the clauses that catch exceptions are
  others; the code has been rearranged here and there. One relation (`Ag`) goes through both programs function by function: whatever Python
  gives, JavaScript gives, and what Python raises JavaScript raises by the same name, except that nothing is said where Python raises
  `IndexError`. Where Python catches that `IndexError` the two go on alike (`jvokaha_index_js`). JavaScript throws `TypeError` where Python raises
  DecompositionError for a single rafsi; the slinku'i test is where this could be seen, and it is not, because a word that is `to` and
  such a rafsi is too short (`single_short`). The recursion is tied by induction on the budget. C15 says on which words Python raises `IndexError`.
- **C79** (`Props/Js.lean`, lemmas in `Lemmas/JsSearch.lean`, `Lemmas/JsApi.lean`). False of the code as a whole, `C79_false`: with exp_rafsi_shapes the test
  of jvozba.py:329-331 never applies and that of jvozba.ts does; `scoreLujvo` counts 1100 for a hyphen; strings are divided at other characters. Proved is
  the rest: the tables, the search with its ties, the result, without experimental rafsi (`NoExp`); and the exact difference of the scores.
- **C80** (`SpecJs.lean`, `Props/JsErrors.lean`, lemmas in `Lemmas/JsErr.lean`, `Lemmas/JsErrApi.lean`). Where Python raises `IndexError`, C78 and C79
  say nothing of JavaScript. Here the exceptions of the JavaScript functions are followed on their own, as `Errs` does for Python. TypeError of katna.ts is
  thrown only for the empty word and a single rafsi (`Lone`), which `single_short` excludes; in getLujvo because every form of a component has three letters
  or more (`jsForm_long`), so that what the search finds has four or more (`jsSearch_long`). That fuel is not among the exceptions is termination.
- **C81** (`SpecRs.lean`, `Props/RsSettings.lean`, lemmas in `Lemmas/RsSettings.lean`). The settings strings of the Rust crate, from its
  own text. `GoodFlags` and `Says` are the specification: only flags, no two about the same setting, and what each flag means. The parser
  is shown equivalent to them for every string, and `apply_flags` is related to the parser by induction on the flags.
- **C82** (`Props/FirstPart.lean`, lemmas in `Lemmas/FirstPart.lean`). From the characterisation of brivla (C48): the first piece of a lujvo or
  the first part of an extended lujvo is looked at. False in general: the test for a cmavo falling off asks only whether what is left is
  a rafsi or a lujvo, so `jaibaibai'ymle` passes. The partial theorem describes the exceptions exactly.
- **C83** (`SpecJoin.lean`, `Props/Joined.lean`, lemmas in `Lemmas/Joined.lean`). The converse direction of C47 for words in which every
  hyphen has a y: by induction on the components they make a word put together of parts (`Glued`, as in C38), so it is accepted;
  a zi'evla among the pieces rules out `LUJVO`. Slinku'i: rafsi behind "to" cannot have 'y in them, nor a zi'evla between two y.
- **C84** (`Props/Raises.lean`, lemmas in `Lemmas/Raises.lean`). What each component makes `get_rafsi_list_list` raise is followed
  on its own: a component that passes the letter test has no y in it, and of strings without y `analyse_brivla` raises only NotBrivlaError
  (C15), which is caught everywhere. The search itself raises nothing, since every rafsi it is given has a letter that is not a hyphen.
- **C85** (`Rs.lean`, `SpecRsShape.lean`, `Props/RsTarmi.lean`, lemmas in `Lemmas/RsTarmi.lean`). Case analysis over strings of length
  up to five for the shapes (longer strings agree at once). The clusters: no group captured by the regular expressions is empty
  (`GroupTakes`), so both sides ask the same question of it; clusters of three, where the Rust function goes on to the regular
  expression and the Python function does not, are worked out by hand.
- **C86** (`Rs.lean`, `SpecRsLujvo.lean`, `Props/RsLujvo.lean`, lemmas in `Lemmas/RsSearch.lean`, `Lemmas/RsList.lean`, `Lemmas/RsKaha.lean`,
  `Lemmas/RsSlin.lean`). The components have the same forms in both versions (`rsComponents_ok`), on which the shapes agree, so the two
  searches go through the same candidates (`rs_searched`). The Rust crate tests for slinku'i behind "pa", Python behind "to": the cuts of
  the two words are compared (`near_jvokaha2`: the same pieces, or both fail), then their reassembly, and that "pa" and "to" make no
  difference is C69. Scores stay below `i32::MAX` because each component adds at most 9900.
- **C87** (`RsApi.lean`, `SpecRsApi.lean`, `Props/RsApi.lean`, lemmas in `Lemmas/RsApi.lean`, `Lemmas/RsJvokaha.lean`). From C86: a tanru is
  read word by word, and full stops are counted to show that the difference in reading is exactly `StrayDot`. The cut of a whole word is
  compared as in C86, with C86 itself for the reassembly.
- **C88** (`RsAnalyse.lean`, `Props/RsAnalyse.lean`, lemmas in `Lemmas/RsAnalyse.lean`). `analyze_brivla` is modelled up to `jvokaha`; the rest
  is a parameter. The pieces of a lujvo (C41) make a plain word, so C87 applies in one direction; the other direction uses that the
  parameter cannot say LUJVO. Scores are compared piece by piece with C85, and the tiebreak by the shape of the first two pieces.
- **C89** (`RsCheck.lean`, `Props/RsCheck.lean`, lemmas in `Lemmas/RsCheck.lean`, `Lemmas/RsLate.lean`, `Lemmas/RsFull.lean`). `check_zihevla_or_rafsi`
  and the rest of `analyze_brivla` for words without y. By induction on the recursion limit. The scans differ in two places: the regular expression
  for clusters (C85), and what happens if two consonants precede the first cluster, where Python refuses the word and Rust looks for cmavo that
  fall off. `late_absurd` shows that they always do: the part from the last single consonant on is a zi'evla if the word had no other fault.
- **C90** (`Props/RsVeljvo.lean`, lemmas in `Lemmas/RsVeljvo.lean`). The pieces of a lujvo are CLL rafsi (C41); they and the words with an added
  a are without y, so C89 answers for `is_brivla`. Words that end in a consonant are a cmevla or an error for both.
- **C91** (`SpecRsOwn.lean`, `Props/RsOwn.lean`, lemmas in `Lemmas/RsErr.lean`). Every step of the Rust analysis of a word without y ends in an
  answer or `NotZihevlaError`, which becomes `NotBrivlaError`; with C89 and C15 both refuse the same words. A word without two adjacent
  consonants is refused by C36. So the components are components in the sense of C86 and C87, with the crate's own analysis in `RsRest`.
- **C92** (`Props/RsRound.lean`). C91 carries a result of the Rust `get_lujvo` over to the Python version, where C54, C38, C43 and C35 apply; C88 and
  C90 carry the analysis back. `score_lujvo` of the crate differs from the score of the search by 100 for every r or n hyphen.
- **C93** (`Props/RsBest.lean`). C91 carries the result over to the Python version, where C25, C70 and C53 apply.
- **C94** (`Props/RsCmevla.lean`). What `jvokaha` of the Python version returns, `jvokaha` of the Rust crate returns too, whatever the last letter
  (`Lemmas/RsCme.lean`); C42 gives the pieces. A cmevla made of gismu and cmavo has such pieces, by the lemmas of C38.
- **C95** (`Props/RsNoY.lean`). What `jvokaha` of the Rust crate returns for a word without y, `jvokaha` of the Python version returns too
  (`Lemmas/RsCmeBack.lean`); with C94 this is an equivalence for words that end in a consonant. C89 has those that end in a vowel, and both versions
  refuse those that end in an apostrophe at once.
- **C96** (`Props/Three.lean`). C79 and C91 compare the JavaScript and the Rust version with the Python version; the round trips are C43, C78, C92
  and C94. For words C95 and C88 do the same, with C78; C15 says that the Python version raises no IndexError on words without y. Listed words have at most seven letters, by evaluation of the whole table.
- **C97** (`Props/RsWhole.lean`). `Verif/RsY.lean` models tools.rs:424-666, so that `rsAnalyseAll` is `analyze_brivla` without a parameter for words
  with y. Invariant of the loop over the parts: the pieces so far and the hyphen carried over spell what has been read. At the end nothing is carried
  over, because the word ends in a letter.
- **C98** (`Props/RsAll.lean`). A word without y never reaches tools.rs:424-666, not even in recursive calls, because these are for tails of the
  word (`rsAll_noY`); so C95 carries over to the whole function. C88 and C94 hold for anything in the place of the rest.
- **C99** (`Props/RsAll.lean`). False: `analyze_brivla("bily'aa")` panics, for every limit of recursion, since `split_vowel_cluster("aa")` is an error
  and tools.rs:455 unwraps it. Proved for words without y, from C98.
- **C100** (`Props/RsConsonant.lean`). `jvokaha` cuts nothing that does not begin with a consonant, and `check_zihevla_or_rafsi` finds no cluster
  without consonants. Invariant of the loop over the parts of a word without consonants: no cluster has been seen and, if on-glides do not count, the
  number of consonants is 0; so tools.rs:645-657 refuses the word.
- **C101** (`Props/RsWritten.lean`). The tests at jvozba.rs:180-190 and 304-308 come first for each component; a component that passes them is
  dashes, letters and dashes by the splitting lemma for stripped dashes. Added because a wrong program (v28 in `seeded/LOG.jsonl`) survived.
