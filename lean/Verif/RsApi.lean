import Verif.Rs

/-!
# Model of the Rust crate: functions that take a tanru or a word

The simplifications are those of `Verif/Rs.lean`.
-/

namespace Jvotci

/-- Rust's `char::is_whitespace`: the Unicode property White_Space. -/
def rsIsSpace (c : Char) : Bool :=
  let n := c.toNat
  (9 ≤ n && n ≤ 13) || n == 32 || n == 0x85 || n == 0xA0 || n == 0x1680 ||
  (0x2000 ≤ n && n ≤ 0x200A) || n == 0x2028 || n == 0x2029 || n == 0x202F || n == 0x205F || n == 0x3000

/-- Auxiliary for `rsSplitSpaces`: `acc` is the word being read, reversed. -/
def rsSplitAux : Str → Str → List Str
  | acc, [] => if acc.isEmpty then [] else [acc.reverse]
  | acc, c :: cs =>
    if rsIsSpace c then
      (if acc.isEmpty then rsSplitAux [] cs else acc.reverse :: rsSplitAux [] cs)
    else rsSplitAux (c :: acc) cs

/-- Rust's `str::split_whitespace`. -/
def rsSplitSpaces (s : Str) : List Str := rsSplitAux [] s

/-- jvozba.rs:70-73, `process_tanru`. -/
def rsProcessTanru (tanru : Str) : List Str := (rsSplitSpaces tanru).map rsNormalise

/-- jvozba.rs:624-629, `get_lujvo_with_analytics`. `n` limits the recursion of `is_slinkuhi`. -/
def rsGetLujvoWithAnalytics (A : RsRest) (n : Nat) (s : RsSettings) (tanru : Str) : Except RsErr (Str × Int × List (Nat × Nat)) :=
  rsGetLujvoFromList A n s (rsProcessTanru tanru)

/-- jvozba.rs:633-635, `get_lujvo`. -/
def rsGetLujvo (A : RsRest) (n : Nat) (s : RsSettings) (tanru : Str) : Except RsErr Str :=
  match rsGetLujvoWithAnalytics A n s tanru with
  | .ok r => .ok r.1
  | .error e => .error e

/-- tools.rs:97-111, `is_gismu_or_lujvo`. -/
def rsIsGismuOrLujvo (A : RsRest) (n : Nat) (y : YHyphens) (allowMz : Bool) (s : Str) : Except RsErr Bool :=
  if s.length < 5 ∨ ¬ rsIsVowel (rsBack s 1) then .ok false
  else if rsIsGismu allowMz s then .ok true
  else
    match rsJvokaha A (rsSlinkuhi A n) y .cluster false allowMz s with
    | .ok _ => .ok true
    | .error .decomposition | .error .invalidCluster => .ok false
    | .error e => .error e

/-- katna.rs:25-35, `search_selrafsi_from_rafsi`. -/
def rsSearchSelrafsi (r : Str) : Option Str :=
  let inTable : Option Str := RAFSI_LIST.findSome? (fun e => if e.2.contains r then some e.1 else none)
  if r ≠ s%"brod" ∧ r.length = 4 ∧ ¬ r.any (· == '\'') then
    match ((s%"aeiou").map (fun c => r ++ [c])).find? (fun gismu => (RAFSI_LIST.lookup gismu).isSome) with
    | some gismu => some gismu
    | none => inTable
  else inTable

/-- tools.rs:669-679, `get_rafsi_indices`, with the position and the places found so far. -/
def rsIndicesLoop : List Str → Nat → List (Nat × Nat) → List (Nat × Nat)
  | [], _, indices => indices
  | r :: rl, pos, indices =>
    rsIndicesLoop rl (pos + r.length) (if !HYPHENS.contains r then indices ++ [(pos, pos + r.length)] else indices)

/-- tools.rs:669-679, `get_rafsi_indices`. -/
def rsGetRafsiIndices (rl : List Str) : List (Nat × Nat) := rsIndicesLoop rl 0 []

end Jvotci
