import Verif.RsAnalyse

/-!
# Model of the Rust crate: zi'evla

`check_zihevla_or_rafsi`, and with it `analyze_brivla` for words without y. What `analyze_brivla` does with words that have a y and
are no CLL lujvo (tools.rs:424-666) is still a parameter. The simplifications are those of `Verif/Rs.lean`.
-/

namespace Jvotci

/-- Rust's `str::split` with a test for a character. -/
def rsSplitBy (p : Char → Bool) : Str → List Str
  | [] => [[]]
  | c :: cs =>
    if p c then [] :: rsSplitBy p cs
    else
      match rsSplitBy p cs with
      | [] => [[c]]
      | v :: vs => (c :: v) :: vs

/-- tarmi.rs:308-310: the test for the vowels of one cmavo. `first` is `i == 0`. -/
def rsCmavoVowels (first : Bool) (v : Str) : Bool :=
  (first || !v.isEmpty) && v.length < 2 || v.length == 2 && rsIsGlide v ||
    (match rsSplitVowelCluster v with | .ok _ => true | .error _ => false)

/-- tarmi.rs:306-312, `is_cmavo_compound`. -/
def rsIsCmavoCompound (s : Str) : Bool :=
  match rsSplitBy (fun c => rsIsConsonant c || c == '\'') s with
  | [] => true
  | v :: vs => rsCmavoVowels true v && vs.all (rsCmavoVowels false)

/-- tools.rs:167-188: cmavo fall off before the first cluster, which is at `pos`. `accepts` is `analyze_brivla(..).is_ok()`. -/
def rsCmavoFall (accepts : Str → Bool) (valsi : Str) (pos : Nat) : Bool :=
  (List.range pos).any fun k =>
    let toPart := valsi.take (k + 1)
    let smabruPart := valsi.drop (k + 1)
    (rsIsVowel (rsBack toPart 1) || rsBack toPart 1 == 'y') && rsIsCmavoCompound toPart &&
      (rsIsGlide smabruPart || !START_VOWEL_CLUSTERS.contains [rsBack toPart 1, rsAt smabruPart 0]) && accepts smabruPart

/-- tools.rs:160-229: a consonant chunk. The loops over pairs and triples of letters are those of `hasBadPair` and
`hasBannedTriple`. -/
def rsZihConsonants (accepts : Str → Bool) (allowMz : Bool) (valsi chunk : Str) (st : ZState) : Except RsErr ZState :=
  if chunk.length ≥ 2 && st.clusterPos.isNone && st.numConsonants > 1 && rsCmavoFall accepts valsi st.pos then .error .notZihevla
  else
    let clusterPos := if chunk.length ≥ 2 && st.clusterPos.isNone then some st.pos else st.clusterPos
    if st.numSyllables == 0 && chunk.length ≥ 2 && !INITIAL.contains (slice chunk 0 2) then .error .notZihevla
    else if hasBadPair (validPairs allowMz) chunk then .error .notZihevla
    else if hasBannedTriple chunk then .error .notZihevla
    else if !(if st.pos = 0 then rsIsZihevlaInitialCluster chunk else rsIsZihevlaMiddleCluster chunk) then .error .notZihevla
    else .ok { pos := st.pos + chunk.length, numSyllables := st.numSyllables, clusterPos,
               numConsonants := st.numConsonants + chunk.length, finalConsonantPos := st.pos }

/-- tools.rs:230-262: a vowel chunk. `strin!(valsi_, pos - 1)` is the last character when `pos` is 0. -/
def rsZihVowels (valsi chunk : Str) (st : ZState) : Except RsErr ZState :=
  match rsSplitVowelCluster chunk with
  | .error .decomposition => .error .notZihevla
  | .error e => .error e
  | .ok syllables =>
    let before := if st.pos = 0 then rsBack valsi 1 else rsAt valsi (st.pos - 1)
    if st.clusterPos.isNone && before ≠ '\'' && syllables.length ≥ 2 && st.pos + syllables.flatten.length == valsi.length then
      .error .notZihevla
    else if st.pos ≠ 0 && (match syllables with | [] => false | s :: _ => FOLLOW_VOWEL_CLUSTERS.contains s) then .error .notZihevla
    else .ok { st with pos := st.pos + chunk.length, numSyllables := st.numSyllables + syllables.length }

/-- tools.rs:158-285: the loop. `rest` is the unread part of `valsi`. First argument: fuel. -/
def rsZihScan (accepts : Str → Bool) (allowMz : Bool) (valsi : Str) : Nat → Str → ZState → Except RsErr ZState
  | 0, _, _ => .error .fuel
  | fuel + 1, rest, st =>
    if rest.isEmpty then .ok st
    else if rsIsConsonant (rsAt rest 0) then
      match rsZihConsonants accepts allowMz valsi (rest.takeWhile rsIsConsonant) st with
      | .ok st => rsZihScan accepts allowMz valsi fuel (rest.dropWhile rsIsConsonant) st
      | .error e => .error e
    else if rsIsVowel (rsAt rest 0) then
      match rsZihVowels valsi (rest.takeWhile rsIsVowel) st with
      | .ok st => rsZihScan accepts allowMz valsi fuel (rest.dropWhile rsIsVowel) st
      | .error e => .error e
    else if rsAt rest 0 == '\'' then
      if st.pos < 1 || !rsIsVowel (rsAt valsi (st.pos - 1)) then .error .notZihevla
      else if (rest.drop 1).isEmpty || !rsIsVowel (rsAt valsi (st.pos + 1)) then .error .notZihevla
      else rsZihScan accepts allowMz valsi fuel (rest.drop 1) { st with pos := st.pos + 1 }
    else .error .notZihevla

/-- tools.rs:297-312: does the word fall apart before position `p`? `brivla` is `is_brivla`. -/
def rsFallsBefore (brivla : Str → Bool) (valsi : Str) (p : Nat) : Bool :=
  (List.range (p - 1)).any fun k =>
    (rsIsConsonant (rsAt valsi (p - (k + 1))) || rsIsGlide (valsi.drop (p - (k + 1)))) && brivla (valsi.drop (p - (k + 1)))

/-- tools.rs:141-334, `check_zihevla_or_rafsi`. -/
def rsCheck (accepts brivla : Str → Bool) (slinkuhi : Str → Except RsErr Bool) (expRafsi allowMz requireZihevla : Bool) (valsi : Str) :
    Except RsErr Shape :=
  if requireZihevla && valsi.length < 4 then .error .notZihevla
  else
    match rsZihScan accepts allowMz valsi (valsi.length + 1) valsi {} with
    | .error e => .error e
    | .ok st =>
      if st.numSyllables < 2 && (requireZihevla || !expRafsi) then .error .notZihevla
      else
        match st.clusterPos with
        | none =>
          if requireZihevla then .error .notZihevla
          else if !rsIsConsonant (rsAt valsi 0) && !expRafsi then .error .notZihevla
          else if st.numConsonants > 1 then .error .notZihevla
          else if st.finalConsonantPos > 0 then .error .notZihevla
          else .ok .rafsi
        | some p =>
          if st.numSyllables > 2 && p > 0 && (brivla (valsi.drop p) || rsFallsBefore brivla valsi p) then .error .notZihevla
          else if !(rsIsVowel (rsAt valsi 0) && rsIsConsonant (rsAt valsi 1)) then
            match slinkuhi valsi with
            | .error e => .error e
            | .ok true => .error .notZihevla
            | .ok false => .ok .zihevla
          else .ok .zihevla

/-- tools.rs:404-666: `analyze_brivla` after `jvokaha`. `Y` stands for tools.rs:424-666. The calls of `check_zihevla_or_rafsi` use
`analyse`, which is `analyze_brivla`. -/
def rsAfter (A : RsRest) (n : Nat) (analyse : Settings → Str → Except RsErr (BType × List Str))
    (Y : Settings → Bool → Str → Except RsErr (RsKind × List Str)) (s : Settings) (isCmetai : Bool) (valsi : Str) :
    Except RsErr (RsKind × List Str) :=
  if !rsIsVowel (rsAt valsi 0) && !rsIsConsonant (rsAt valsi 0) then .error .notBrivla
  else if !valsi.any (· == 'y') then
    if isCmetai then .error .notBrivla
    else
      let accepts := fun v => match analyse { yHyphens := s.yHyphens, expRafsi := s.expRafsi, allowMz := s.allowMz } v with
        | .ok _ => true
        | .error _ => false
      let brivla := fun v => match analyse { yHyphens := s.yHyphens } v with
        | .ok (t, _) => decide (t ≠ .cmevla)
        | .error _ => false
      match rsCheck accepts brivla (rsSlinkuhi A n s.yHyphens s.allowMz) s.expRafsi s.allowMz true valsi with
      | .ok _ => .ok (.zihevla, [valsi])
      | .error .notZihevla => .error .notBrivla
      | .error e => .error e
  else Y s isCmetai valsi

/-- tools.rs:373-666, `analyze_brivla`, with its recursion limited to `k` levels and that of `is_slinkuhi` to `n`. -/
def rsAnalyseFull (A : RsRest) (n : Nat) (Y : Settings → Bool → Str → Except RsErr (RsKind × List Str)) :
    Nat → Settings → Str → Except RsErr (BType × List Str)
  | 0, _, _ => .error .fuel
  | k + 1, s, w => rsAnalyseBrivla ⟨A, rsAfter A n (rsAnalyseFull A n Y k) Y⟩ n s w

/-- The crate with its own `analyze_brivla` (tools.rs:412-666) in the place left open in `Verif/RsAnalyse.lean`. -/
def rsSelf (A : RsRest) (n : Nat) (Y : Settings → Bool → Str → Except RsErr (RsKind × List Str)) (k : Nat) : RsOther :=
  ⟨A, rsAfter A n (rsAnalyseFull A n Y k) Y⟩

end Jvotci
