import Verif.SpecPieces
import Verif.SpecZihevla

/-!
# Which words are extended lujvo

An extended lujvo is cut at its y. Every part is a CVC rafsi, a sequence of rafsi, a zi'evla (whole, or without its last
vowel) or an experimental rafsi. An apostrophe before or after y belongs to the hyphen.
-/

namespace Jvotci.Spec

open Jvotci

/-- What stands between two y. -/
inductive PartKind where
  /-- one CVC rafsi -/
  | cvc
  /-- rafsi of the eight CLL shapes -/
  | rafsi
  /-- a zi'evla, or what is left of one without its last vowel -/
  | zihevla
  /-- an experimental rafsi -/
  | exp
  deriving DecidableEq

/-- A stretch of a word between two y. `lead`: the y before it is followed by an apostrophe; `trail`: there is an
apostrophe before the y after it; `core`: the letters between these; `pieces`: the rafsi and hyphens the core consists
of. -/
structure YPart where
  lead : Bool
  core : Str
  trail : Bool
  kind : PartKind
  pieces : List Str

/-- The letters of a part. -/
def YPart.text (p : YPart) : Str := (if p.lead then s%"'" else []) ++ p.core ++ (if p.trail then s%"'" else [])

/-- The word. -/
def joinParts : List YPart → Str
  | [] => []
  | [p] => p.text
  | p :: q :: v => p.text ++ s%"y" ++ joinParts (q :: v)

/-- The rafsi and hyphens of the word. -/
def joinPieces : List YPart → List Str
  | [] => []
  | [p] => p.pieces
  | p :: q :: v =>
    p.pieces ++ [(if p.trail then s%"'" else []) ++ s%"y" ++ (if q.lead then s%"'" else [])] ++ joinPieces (q :: v)

/-- `x` begins with a consonant or, if that option is set, with an on-glide. -/
def Starts (glides : Bool) (x : Str) : Prop := ConsonantInitial x ∨ (glides = true ∧ Onglide x)

/-- There is a consonant cluster in the part: any rafsi other than CVV and CV'V counts as one, and so do r and n. -/
def YPart.Cluster (p : YPart) : Prop := p.kind = .zihevla ∨ (p.kind = .rafsi ∧ ∃ x ∈ p.pieces, ¬ VowelRafsi x)

/-- There is a consonant cluster in the parts, or across a y: after CVC a part begins with a consonant (not another
CVC). -/
def PartsCluster (s : Settings) (ps : List YPart) : Prop :=
  (∃ p ∈ ps, p.Cluster) ∨
  ∃ u p q v, ps = u ++ p :: q :: v ∧ p.kind = .cvc ∧ q.kind ≠ .cvc ∧ Starts s.glides q.core

/-- There is a consonant cluster before the core of `p`, if the parts `u` come before it. -/
def ClusterBefore (s : Settings) (u : List YPart) (p : YPart) : Prop :=
  PartsCluster s u ∨ ((∃ w q, u = w ++ [q] ∧ q.kind = .cvc) ∧ Starts s.glides p.core)

/-- The core cannot be read as rafsi. -/
def Unreadable (s : Settings) (x : Str) : Prop := ∀ qs, Reading s.yHyphens s.allowMz qs → qs.flatten ≠ x

/-- If there is a vowel missing at the end of the core, it is not the a of a lujvo, except one that ends in a gismu. -/
def StemOk (s : Settings) (core : Str) : Prop :=
  (∃ c, core.getLast? = some c ∧ Consonant c) →
  ∀ qs, LujvoPieces { yHyphens := s.yHyphens, allowMz := s.allowMz } qs → qs.flatten = core ++ s%"a" →
    ∃ x g, Gismu s.allowMz g ∧ core ++ s%"a" = x ++ g

/-- The tosmabru test: the first consonant and vowels of the core fall off, and a rafsi or compound of rafsi is left. -/
def FallsOff (s : Settings) (core : Str) : Prop :=
  ∃ x m, core = x ++ m ∧
    (VowelRafsi x ∨ (pattern x = s%"CV" ∧ ConsonantInitial m)) ∧
    ((Rafsi false m ∧ pattern m ≠ s%"CCV") ∨
      ∃ qs, qs.flatten = m ∧ (LujvoPieces { yHyphens := s.yHyphens, allowMz := s.allowMz } qs ∨
        CmevlaPieces { yHyphens := s.yHyphens, allowMz := s.allowMz } qs))

/-- The part is followed by y, and nothing else in the word shows where it begins: it must be a zi'evla. -/
def NeedsCluster (s : Settings) (last nextLead : Bool) (clustered : Prop) (p : YPart) : Prop :=
  (p.trail = false ∧ last = false) ∨
  (p.trail = true ∧ s.yHyphens = .standard ∧ nextLead = false ∧ ¬ clustered)

/-- The core, with its last vowel put back where it is missing. -/
def YPart.whole (p : YPart) (last : Bool) : Str := if p.trail = false ∧ last = false then p.core ++ s%"a" else p.core

/-- A part that consists of rafsi. -/
structure RafsiPart (s : Settings) (cmevla first last nextLead : Bool) (clustered : Prop) (p : YPart) : Prop where
  reading : Reading s.yHyphens s.allowMz p.pieces
  core : p.pieces.flatten = p.core
  notCvc : pattern p.core ≠ s%"CVC"
  ends : p.trail = false → last = false → ∃ c, p.core.getLast? = some c ∧ Consonant c
  stem : StemOk s p.core
  /-- CVV and CV'V before 'y fall off, if there is no cluster before and no apostrophe after -/
  fallsOff : cmevla = false → VowelRafsi p.core → p.trail = true → s.yHyphens = .standard → nextLead = false → clustered
  tosmabru : first = true → ¬ FallsOff s p.core

/-- A part that is a zi'evla, with or without its last vowel. -/
structure ZihevlaPart (s : Settings) (last nextLead : Bool) (clustered : Prop) (p : YPart) : Prop where
  pieces : p.pieces = [p.core]
  unreadable : p.trail = true ∨ last = true ∨ (∃ c, p.core.getLast? = some c ∧ Consonant c) → Unreadable s p.core
  stem : StemOk s p.core
  sounds : Sounds s.allowMz (p.whole last)
  vowel : ∃ c, (p.whole last).getLast? = some c ∧ Vowel c
  cluster : ∃ u ch t, Run Consonant (p.whole last) u ch t ∧ 2 ≤ ch.length ∧ (u.filter (fun c => Consonant c)).length ≤ 1
  syllables : NeedsCluster s last nextLead clustered p ∨ s.expRafsi = false → ∃ n, Syllables .nothing (p.whole last) n ∧ 2 ≤ n
  /-- it does not fall apart -/
  together : ∀ n, Syllables .nothing (p.whole last) n → 2 < n →
    ∀ u t, p.whole last = u ++ t → (∃ a, u.getLast? = some a ∧ Vowel a) → ConsonantInitial t ∨ Onglide t →
      (∀ a b, Adjacent u a b → ¬ (Consonant a ∧ Consonant b)) → isBrivla .linked { yHyphens := s.yHyphens } t = .ok false
  slinkuhi : ConsonantInitial (p.whole last) → ∀ qs, LujvoPieces { yHyphens := s.yHyphens, allowMz := s.allowMz } qs →
    qs.flatten ≠ s%"to" ++ p.whole last
  notRafsi : p.trail = false → last = false → Unreadable s (p.core ++ s%"a")

/-- The last vowels of the word, unless they come after an apostrophe, are one syllable: the word is not several cmavo. -/
def OneCmavo (v : Str) : Prop :=
  ∀ u x, Run Vowel v u x [] → u.getLast? ≠ some '\'' → ∀ syls, syls.flatten = x → VowelRun syls → syls.length ≤ 1

/-- A part that is an experimental rafsi. -/
structure ExpPart (s : Settings) (last nextLead : Bool) (clustered : Prop) (p : YPart) : Prop where
  pieces : p.pieces = [p.core]
  option : s.expRafsi = true
  free : ¬ NeedsCluster s last nextLead clustered p
  unreadable : Unreadable s p.core
  sounds : Sounds s.allowMz p.core
  vowel : ∃ c, p.core.getLast? = some c ∧ Vowel c
  /-- there is no consonant, except possibly at the beginning -/
  consonants : ∀ c ∈ p.core.tail, ¬ Consonant c
  one : OneCmavo p.core

/-- A part of an extended lujvo or cmevla. -/
structure PartOk (s : Settings) (cmevla first last nextLead : Bool) (clustered : Prop) (p : YPart) : Prop where
  /-- y' comes before a vowel that is not an on-glide -/
  lead : p.lead = true → first = false ∧ ∃ x t syls, Run Vowel p.core [] x t ∧ syls.flatten = x ∧ VowelRun syls ∧
    ∀ h, syls.head? = some h → ¬ Glided h
  /-- y without an apostrophe comes before a consonant or on-glide -/
  start : p.lead = false → if first then VowelInitial p.core ∨ ConsonantInitial p.core else ConsonantInitial p.core ∨ Onglide p.core
  noY : 'y' ∉ p.core
  ends : p.core.getLast? ≠ some '\''
  /-- 'y comes after a vowel -/
  trail : p.trail = true → last = false ∧ ∃ c, p.core.getLast? = some c ∧ Vowel c
  kind : match p.kind with
    | .cvc => pattern p.core = s%"CVC" ∧ p.pieces = [p.core]
    | .rafsi => RafsiPart s cmevla first last nextLead clustered p
    | .zihevla => ZihevlaPart s last nextLead clustered p
    | .exp => ExpPart s last nextLead clustered p

open Classical in
/-- What a part counts for the `consonants` option, if there is no cluster. An experimental rafsi of the shape CVV
counts twice. -/
noncomputable def YPart.count (s : Settings) (p : YPart) : Nat :=
  match p.kind with
  | .cvc => 2
  | .rafsi => p.pieces.length
  | .zihevla => 2
  | .exp => (if Starts s.glides p.core then 1 else 0) + (if pattern p.core = s%"CVV" then 1 else 0)

/-- The parts of an extended lujvo. -/
structure ExtendedLujvo (s : Settings) (ps : List YPart) : Prop where
  two : 2 ≤ ps.length
  parts : ∀ u p v, ps = u ++ p :: v →
    PartOk s false u.isEmpty v.isEmpty (v.head?.any YPart.lead) (ClusterBefore s u p) p
  /-- a cluster or, with the other values of the option, two consonants or one, and a consonant or on-glide behind y -/
  consonants : PartsCluster s ps ∨
    (s.consonants ≠ .cluster ∧ (if s.consonants = .oneConsonant then 1 else 2) ≤ (ps.map (YPart.count s)).sum ∧
      ∃ p ∈ ps.tail, p.kind ≠ .cvc ∧ (ConsonantInitial p.core ∨ Onglide p.core))
  /-- the last letter is a vowel -/
  vowel : ∃ c, (joinParts ps).getLast? = some c ∧ Vowel c
  /-- the word does not begin CCV'y -/
  begin : ∀ a b c v, InitialPair a b → Vowel c → joinParts ps ≠ a :: b :: c :: '\'' :: 'y' :: v
  notLujvo : ∀ qs, LujvoPieces s qs → qs.flatten ≠ joinParts ps
  slinkuhi : ConsonantInitial (joinParts ps) → ∀ qs, LujvoPieces { yHyphens := s.yHyphens, allowMz := s.allowMz } qs →
    qs.flatten ≠ s%"to" ++ joinParts ps

/-- The parts of an extended cmevla: the last one, too, lacks a vowel at its end if it is a zi'evla. -/
structure ExtendedCmevla (s : Settings) (ps : List YPart) : Prop where
  two : 2 ≤ ps.length
  parts : ∀ u p v, ps = u ++ p :: v → PartOk s true u.isEmpty false (v.head?.any YPart.lead) (ClusterBefore s u p) p
  /-- the last letter is a consonant -/
  consonant : ∃ c, (joinParts ps).getLast? = some c ∧ Consonant c
  /-- the word does not begin CCV'y -/
  begin : ∀ a b c v, InitialPair a b → Vowel c → joinParts ps ≠ a :: b :: c :: '\'' :: 'y' :: v
  notCmevla : ∀ qs, CmevlaPieces s qs → qs.flatten ≠ joinParts ps
  slinkuhi : ConsonantInitial (joinParts ps) → ∀ qs, CmevlaPieces { yHyphens := s.yHyphens, allowMz := s.allowMz } qs →
    qs.flatten ≠ s%"to" ++ joinParts ps

end Jvotci.Spec
