/-
C60, C61: taking a lujvo apart and making it again.
-/
import Verif.Lemmas.Stable

namespace Jvotci
open Spec

/-- **C60.** `get_veljvo` of a lujvo gives words and rafsi of which `get_lujvo` (with the same options) always makes a lujvo,
and the one it makes is no worse than the one taken apart. The score by which `get_lujvo` searches counts 100 for a y
between two rafsi, and `score_lujvo` does not: that is the last summand. -/
theorem C60_remade {s : Settings} {w : Str} {ps : List Str} (h : analyseBrivla .linked s w = .ok (.lujvo, ps)) (hlen : w.length < 10 ^ 93) :
    ∃ vs w' sc ix sc0, getVeljvo .linked s w = .ok vs ∧ getLujvoWithAnalytics .linked s false (.list vs) = .ok (w', sc, ix) ∧
      scoreLujvo .linked s w = .ok sc0 ∧ sc ≤ sc0 + 100 * (ps.count s%"y" : Int) := by
  obtain ⟨l, m, h1, h2, h3, h4, -⟩ := lujvoPieces_made (C41_only_lujvo h).2
  exact remade h (.inl rfl) hlen ⟨l, m, h1, h2, h3, h4⟩

/-- **C60.** The same for a cmevla made of CLL rafsi, and `get_lujvo` with `generate_cmevla`. -/
theorem C60_cmevla {s : Settings} {w : Str} {ps : List Str} (h : analyseBrivla .linked s w = .ok (.cmevla, ps)) (hp : CmevlaPieces s ps)
    (hlen : w.length < 10 ^ 93) :
    ∃ vs w' sc ix sc0, getVeljvo .linked s w = .ok vs ∧ getLujvoWithAnalytics .linked s true (.list vs) = .ok (w', sc, ix) ∧
      scoreLujvo .linked s w = .ok sc0 ∧ sc ≤ sc0 + 100 * (ps.count s%"y" : Int) := by
  obtain ⟨l, m, h1, h2, h3, h4, -⟩ := cmevlaPieces_made hp
  exact remade h (.inr rfl) hlen ⟨l, m, h1, h2, h3, h4⟩

example : analyseBrivla .linked {} s%"bajrybarda" = .ok (.lujvo, [s%"bajr", s%"y", s%"barda"]) ∧
    getVeljvo .linked {} s%"bajrybarda" = .ok [s%"bajra", s%"barda"] ∧ scoreLujvo .linked {} s%"bajrybarda" = .ok 9967 ∧
    getLujvoWithAnalytics .linked {} false (.list [s%"bajra", s%"barda"]) = .ok (s%"bajbra", 5878, [(0, 3), (3, 6)]) := by decide +kernel

-- A rafsi of no word.
example : analyseBrivla .linked {} s%"fo'arnanxobybli" = .ok (.lujvo, [s%"fo'a", s%"r", s%"nan", s%"xob", s%"y", s%"bli"]) ∧
    getVeljvo .linked {} s%"fo'arnanxobybli" = .ok [s%"fo'a", s%"snanu", s%"-xob-", s%"bliku"] := by decide +kernel

example : analyseBrivla .linked {} s%"latkerlyzbas" = .ok (.cmevla, [s%"lat", s%"kerl", s%"y", s%"zbas"]) ∧
    getVeljvo .linked {} s%"latkerlyzbas" = .ok [s%"mlatu", s%"kerlo", s%"zbasu"] ∧ scoreLujvo .linked {} s%"latkerlyzbas" = .ok 11887 ∧
    getLujvoWithAnalytics .linked {} true (.list [s%"mlatu", s%"kerlo", s%"zbasu"]) = .ok (s%"latkerzbas", 9857, [(0, 3), (3, 6), (6, 10)]) := by
  decide +kernel

example : analyseBrivla .linked {} s%"saizbatas" = .ok (.cmevla, [s%"sai", s%"zba", s%"tas"]) ∧ CmevlaPieces {} [s%"sai", s%"zba", s%"tas"] :=
  ⟨by decide +kernel, (C42_only_cmevla (b := .pinned) (w := s%"SAI,zbatas") (by decide +kernel) (by decide)).2⟩

/-- **C60.** By `score_lujvo` itself the new lujvo may be worse: it does not count the y in klanypretu more than another letter. -/
theorem C60_by_score_false : ∃ s w vs w' sc sc',
    (analyseBrivla .linked s w).toOption.map (·.1) = some .lujvo ∧ getVeljvo .linked s w = .ok vs ∧
    (getLujvoWithAnalytics .linked s false (.list vs)).toOption.map (·.1) = some w' ∧
    scoreLujvo .linked s w = .ok sc ∧ scoreLujvo .linked s w' = .ok sc' ∧ sc < sc' :=
  ⟨{ yHyphens := .forceY }, s%"klanypretu", [s%"klani", s%"pretu"], s%"lai'ypretu", 9927, 9986, by decide +kernel⟩

/-- **C61** (partial). The lujvo made again has the same veljvo, so making it once more changes nothing. Missing: veljvo with one of
`oddWords`, for two of which it is false. -/
theorem C61_stable_partial {s : Settings} {w w' : Str} {ps vs : List Str} {sc : Int} {ix : List (Nat × Nat)}
    (h : analyseBrivla .linked s w = .ok (.lujvo, ps)) (hv : getVeljvo .linked s w = .ok vs) (ho : ∀ v ∈ vs, v ∉ oddWords)
    (hg : getLujvoWithAnalytics .linked s false (.list vs) = .ok (w', sc, ix)) (hlen : w'.length < 10 ^ 96) :
    (∃ ps', analyseBrivla .linked s w' = .ok (.lujvo, ps')) ∧ getVeljvo .linked s w' = .ok vs := by
  obtain ⟨l, m, h1, h2, h3, h4, -, h5⟩ := lujvoPieces_made (C41_only_lujvo h).2
  exact stable h (.inl rfl) ⟨l, m, h1, h2, h3, h4, h5⟩ hv ho hg hlen

/-- **C61** (partial). The same for cmevla made of CLL rafsi. -/
theorem C61_cmevla_partial {s : Settings} {w w' : Str} {ps vs : List Str} {sc : Int} {ix : List (Nat × Nat)}
    (h : analyseBrivla .linked s w = .ok (.cmevla, ps)) (hp : CmevlaPieces s ps) (hv : getVeljvo .linked s w = .ok vs)
    (ho : ∀ v ∈ vs, v ∉ oddWords) (hg : getLujvoWithAnalytics .linked s true (.list vs) = .ok (w', sc, ix)) (hlen : w'.length < 10 ^ 96) :
    (∃ ps', analyseBrivla .linked s w' = .ok (.cmevla, ps')) ∧ getVeljvo .linked s w' = .ok vs := by
  obtain ⟨l, m, h1, h2, h3, h4, -, h5⟩ := cmevlaPieces_made hp
  exact stable h (.inr rfl) ⟨l, m, h1, h2, h3, h4, h5⟩ hv ho hg hlen

example : getLujvoWithAnalytics .linked {} false (.list [s%"fo'a", s%"snanu", s%"-xob-", s%"bliku"]) =
      .ok (s%"fo'arnanxobybli", 14865, [(0, 4), (5, 8), (8, 11), (12, 15)]) ∧
    ∀ v ∈ [s%"fo'a", s%"snanu", s%"-xob-", s%"bliku"], v ∉ oddWords := by decide +kernel

/-- **C61.** Under FORCE_Y, bo'e'ymlatu is made again as brodymlatu, and that has another veljvo. -/
theorem C61_stable_false : ∃ s w vs w' sc ix vs', (analyseBrivla .linked s w).toOption.map (·.1) = some .lujvo ∧
    getVeljvo .linked s w = .ok vs ∧ getLujvoWithAnalytics .linked s false (.list vs) = .ok (w', sc, ix) ∧
    getVeljvo .linked s w' = .ok vs' ∧ vs' ≠ vs :=
  ⟨{ yHyphens := .forceY }, s%"bo'e'ymlatu", [s%"brode", s%"mlatu"], s%"brodymlatu", 10027, [(0, 4), (5, 10)], [s%"brod-", s%"mlatu"],
    by decide +kernel⟩

/-- **C61.** And with the default options, baryrodycacra is made again as barbrodycacra: the y before rod would cost more than its
first letter does. -/
theorem C61_default_false : ∃ w vs w' sc ix vs', (analyseBrivla .linked {} w).toOption.map (·.1) = some .lujvo ∧
    getVeljvo .linked {} w = .ok vs ∧ getLujvoWithAnalytics .linked {} false (.list vs) = .ok (w', sc, ix) ∧
    getVeljvo .linked {} w' = .ok vs' ∧ vs' ≠ vs :=
  ⟨s%"baryrodycacra", [s%"bartu", s%"broda", s%"cacra"], s%"barbrodycacra", 12996, [(0, 3), (3, 7), (8, 13)],
    [s%"bartu", s%"brod-", s%"cacra"], by decide +kernel⟩

end Jvotci
