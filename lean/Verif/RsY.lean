import Verif.RsCheck

/-!
# Model of the Rust crate: words with y

The last part of `analyze_brivla` (tools.rs:424-666), which `Verif/RsCheck.lean` leaves open. With it `analyze_brivla` is modelled whole.
The simplifications are those of `Verif/Rs.lean`. A panic is the error `plain`.
-/

namespace Jvotci

/-- An `unwrap()`: an error becomes a panic. -/
def rsUnwrap {α : Type} : Except RsErr α → Except RsErr α
  | .ok a => .ok a
  | .error .fuel => .error .fuel
  | .error _ => .error .plain

/-- tools.rs:436-467: a leading apostrophe of part number `i`. Returns the part without it and whether it was there. -/
def rsLeadingH (i : Nat) (part : Str) : Except RsErr (Str × Bool) :=
  if part.isEmpty then .error .notBrivla
  else if rsAt part 0 = '\'' then
    let cs := part.drop 1
    if cs.isEmpty then .error .notBrivla
    else if !rsIsVowel (rsAt cs 0) then .error .notBrivla
    else
      match rsUnwrap (rsSplitVowelCluster (cs.takeWhile rsIsVowel)) with
      | .error e => .error e
      | .ok [] => .error .plain
      | .ok (v :: _) => if FOLLOW_VOWEL_CLUSTERS.contains v then .error .notBrivla else .ok (cs, true)
  else if i > 0 && rsIsVowel (rsAt part 0) && !rsIsGlide part then .error .notBrivla
  else .ok (part, false)

/-- tools.rs:491-517. The fields are those of the Python version: `partCopy` is `part_`, `didAddA` is `added_a`. -/
def rsPartForm (s : Settings) (isCmetai : Bool) (yParts : List Str) (i : Nat) (hasCluster : Bool) (part : Str) : Except RsErr PartForm :=
  let partA := part ++ s%"a"
  if rsBack part 1 = '\'' then
    let part' := dropLastN part 1
    if !rsIsVowel (rsBack part' 1) then .error .notBrivla
    else .ok { part := part', partCopy := part', partA, canBeRafsi := true,
               requireCluster := s.yHyphens == .standard && !hasCluster && decide (i + 1 < yParts.length) &&
                 rsAt ((yParts[i + 1]?).getD []) 0 != '\'',
               didAddA := false, trailingH := true }
  else if i + 1 < yParts.length ∨ isCmetai then
    .ok { part := partA, partCopy := part, partA, canBeRafsi := !rsIsVowel (rsBack part 1), requireCluster := true,
          didAddA := true, trailingH := false }
  else
    .ok { part, partCopy := part, partA, canBeRafsi := true, requireCluster := false, didAddA := false, trailingH := false }

/-- tools.rs:549-557. -/
def rsCountFound : List Str → Nat × Bool → Nat × Bool
  | [], acc => acc
  | p :: ps, (n, c) =>
    match rsRafsiTarmi p with
    | .cvv | .cvhv => rsCountFound ps (n + 1, c)
    | .other => rsCountFound ps (n, c)
    | _ => rsCountFound ps (n + 2, true)

/-- tools.rs:519-548: try to read the part as rafsi. Returns the parts found and `katnad`. `analyse` is `analyze_brivla`. -/
def rsTryKaha (analyse : Settings → Str → Except RsErr (BType × List Str)) (s : Settings) (f : PartForm) : Except RsErr (List Str × Bool) :=
  let isLujvo : Except RsErr Bool :=
    if !(s%"'a").isSuffixOf f.partA && !rsIsGismu s.allowMz (lastN f.partA 5) then
      match analyse { yHyphens := s.yHyphens, allowMz := s.allowMz } f.partA with
      | .ok (t, _) => .ok (decide (t = .lujvo))
      | .error .plain => .error .plain
      | .error .fuel => .error .fuel
      | .error _ => .ok false
    else .ok false
  match isLujvo with
  | .error e => .error e
  | .ok true => .error .notBrivla
  | .ok false =>
    match rsJvokaha2 s.yHyphens s.allowMz f.partCopy with
    | .error .decomposition | .error .invalidCluster | .error .type => .ok ([f.part], false)
    | .error e => .error e
    | .ok [] => .error .plain
    | .ok [p] => if !rsIsValidRafsi s.allowMz p then .error .notBrivla else .ok ([p], true)
    | .ok found => .ok (found, true)

/-- tools.rs:560-620: the tests on the first part. `valsi` is the whole word. -/
def rsFirstPart (A : RsRest) (n : Nat) (analyse : Settings → Str → Except RsErr (BType × List Str)) (s : Settings) (isCmetai : Bool)
    (valsi : Str) (yParts : List Str) (f : PartForm) : Except RsErr Unit :=
  let toPart : Str :=
    if rsRafsiTarmi (slice f.part 0 4) = .cvhv then slice f.part 0 4
    else if rsRafsiTarmi (slice f.part 0 3) = .cvv then slice f.part 0 3
    else if rsIsConsonant (rsAt f.part 0) && rsIsVowel (rsAt f.part 1) then slice f.part 0 2
    else []
  let smabru0 : Str := if toPart.isEmpty then [] else f.part.drop toPart.length
  if !smabru0.isEmpty then
    let smabru := if f.didAddA then dropLastN smabru0 1 else rsStripHyphens smabru0
    if rsIsValidRafsi false smabru &&
        !(rsRafsiTarmi smabru == .ccv && rsAt (((yParts[0]?).getD []).drop toPart.length) 3 == '\'') then .error .notBrivla
    else
      match rsJvokaha A (rsSlinkuhi A n) s.yHyphens .cluster false s.allowMz smabru with
      | .ok _ => .error .notBrivla
      | .error .decomposition | .error .invalidCluster | .error .type => .ok ()
      | .error e => .error e
  else if s.yHyphens = .standard ∧ !isCmetai ∧ !toPart.isEmpty ∧ rsAt ((yParts[1]?).getD []) 0 ≠ '\'' then
    let rest := valsi.drop (toPart.length + 2)
    if rsIsCmavoCompound rest then .error .notBrivla
    else
      match analyse s rest with
      | .error .plain => .error .plain
      | .error .fuel => .error .fuel
      | _ => .error .notBrivla
  else .ok ()

/-- tools.rs:433-643: one part. -/
def rsYPart (A : RsRest) (n : Nat) (analyse : Settings → Str → Except RsErr (BType × List Str)) (s : Settings) (isCmetai : Bool)
    (valsi : Str) (yParts : List Str) (i : Nat) (part0 : Str) (st : AState) : Except RsErr AState :=
  let nextHyphen := if i ≠ 0 then st.nextHyphen ++ s%"y" else st.nextHyphen
  match rsLeadingH i part0 with
  | .error e => .error e
  | .ok (part, leadingH) =>
    let nextHyphen := if leadingH then nextHyphen ++ s%"'" else nextHyphen
    let resultParts := if nextHyphen.isEmpty then st.resultParts else st.resultParts ++ [nextHyphen]
    -- tools.rs:472-477
    if rsRafsiTarmi part = .cvc then
      .ok { st with resultParts := resultParts ++ [part], nextHyphen := [],
                    consonantBeforeBreak := true, numConsonants := st.numConsonants + 2 }
    -- tools.rs:478-482
    else if rsRafsiTarmi (part ++ s%"a") = .ccv then .error .notBrivla
    else
      -- tools.rs:483-490
      let isMahortai := if i > 0 && (rsIsConsonant (rsAt part 0) || rsIsGlide part) then false else st.isMahortai
      let hasCluster :=
        if st.consonantBeforeBreak && (rsIsConsonant (rsAt part 0) || (s.glides && rsIsGlide part)) then true else st.hasCluster
      match rsPartForm s isCmetai yParts i hasCluster part with
      | .error e => .error e
      | .ok f =>
        let nextHyphen : Str := if f.trailingH then s%"'" else []
        match (if f.canBeRafsi then rsTryKaha analyse s f else .ok ([], false)) with
        | .error e => .error e
        | .ok (found, katnad) =>
          let counted := rsCountFound found (st.numConsonants, hasCluster)
          if katnad then
            match (if i = 0 then rsFirstPart A n analyse s isCmetai valsi yParts f else .ok ()) with
            | .error e => .error e
            | .ok () => .ok { resultParts := resultParts ++ found, nextHyphen, hasCluster := counted.2, isMahortai,
                              consonantBeforeBreak := false, numConsonants := counted.1 }
          else
            -- tools.rs:621-642
            let accepts := fun v => match analyse { yHyphens := s.yHyphens, expRafsi := s.expRafsi, allowMz := s.allowMz } v with
              | .ok _ => true
              | .error _ => false
            let brivla := fun v => match analyse { yHyphens := s.yHyphens } v with
              | .ok (t, _) => decide (t ≠ .cmevla)
              | .error _ => false
            match rsCheck accepts brivla (rsSlinkuhi A n s.yHyphens s.allowMz) s.expRafsi s.allowMz
                (f.requireCluster || !s.expRafsi) f.part with
            | .error .notZihevla => .error .notBrivla
            | .error e => .error e
            | .ok shape =>
              .ok { resultParts := resultParts ++ [f.partCopy], nextHyphen,
                    hasCluster := if shape = .zihevla then true else counted.2, isMahortai, consonantBeforeBreak := false,
                    numConsonants :=
                      if rsIsConsonant (rsAt f.part 0) || (s.glides && rsIsGlide f.part) then counted.1 + 1 else counted.1 }

/-- tools.rs:432-644: the loop, from part number `i` on. -/
def rsYLoop (A : RsRest) (n : Nat) (analyse : Settings → Str → Except RsErr (BType × List Str)) (s : Settings) (isCmetai : Bool)
    (valsi : Str) (yParts : List Str) : Nat → List Str → AState → Except RsErr AState
  | _, [], st => .ok st
  | i, p :: ps, st =>
    match rsYPart A n analyse s isCmetai valsi yParts i p st with
    | .error e => .error e
    | .ok st => rsYLoop A n analyse s isCmetai valsi yParts (i + 1) ps st

/-- tools.rs:645-657. -/
def rsConsonantsOk (s : Settings) (isCmetai : Bool) (st : AState) : Bool :=
  if !st.hasCluster && !isCmetai then
    match s.consonants with
    | .cluster => false
    | .twoConsonants => if st.numConsonants < 2 then false else !st.isMahortai
    | .oneConsonant => if st.numConsonants < 1 then false else !st.isMahortai
  else true

/-- tools.rs:424-666. -/
def rsY (A : RsRest) (n : Nat) (analyse : Settings → Str → Except RsErr (BType × List Str)) (s : Settings) (isCmetai : Bool)
    (valsi : Str) : Except RsErr (RsKind × List Str) :=
  match rsYLoop A n analyse s isCmetai valsi (splitOn 'y' valsi) 0 (splitOn 'y' valsi) {} with
  | .error e => .error e
  | .ok st =>
    if !rsConsonantsOk s isCmetai st then .error .notBrivla
    else
      let kind : RsKind := if isCmetai then .cmevla else .extendedLujvo
      if !(rsIsVowel (rsAt valsi 0) && (rsIsConsonant (rsAt valsi 1) || rsAt valsi 1 == 'y')) then
        match rsUnwrap (rsSlinkuhi A n s.yHyphens s.allowMz valsi) with
        | .error e => .error e
        | .ok true => .error .notBrivla
        | .ok false => .ok (kind, st.resultParts)
      else .ok (kind, st.resultParts)

/-- tools.rs:373-666, `analyze_brivla`, whole. Its recursion is limited to `k` levels and that of `is_slinkuhi` to `n`. -/
def rsAnalyseAll (A : RsRest) (n : Nat) : Nat → Settings → Str → Except RsErr (BType × List Str)
  | 0, _, _ => .error .fuel
  | k + 1, s, w => rsAnalyseBrivla ⟨A, rsAfter A n (rsAnalyseAll A n k) (rsY A n (rsAnalyseAll A n k))⟩ n s w

end Jvotci
