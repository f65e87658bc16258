import Verif.Tarmi

/-!
# The settings of the Rust crate

Models `rs/src/tarmi.rs:45-204`: `Settings`, its printed form, its parser and `apply_flags`. A Rust `&str` is a list of characters;
`none` stands for `Err(SettingsError)` and for `None`. `YHyphenSetting` (tarmi.rs:50-55) and `ConsonantSetting` (tarmi.rs:63-68) are
the enums `YHyphens` and `Consonants` of `Tarmi.lean`, with the same members.
-/

namespace Jvotci

/-- tarmi.rs:73-91, `Settings`, with the values of `#[derive(Default)]`. -/
structure RsSettings where
  generateCmevla : Bool := false
  yHyphens : YHyphens := .standard
  consonants : Consonants := .cluster
  expRafsi : Bool := false
  glides : Bool := false
  allowMz : Bool := false
  deriving DecidableEq, Repr

/-- tarmi.rs:115-138, `impl Display for Settings`. -/
def rsDisplay (s : RsSettings) : Str :=
  (if s.generateCmevla then s%"c" else []) ++
  (match s.yHyphens with | .standard => [] | .allowY => s%"A" | .forceY => s%"F") ++
  (match s.consonants with | .cluster => [] | .twoConsonants => s%"2" | .oneConsonant => s%"1") ++
  (if s.expRafsi then s%"r" else []) ++
  (if s.glides then s%"g" else []) ++
  (if s.allowMz then s%"z" else [])

/-- tarmi.rs:141-175, `impl FromStr for Settings`; `none` is `SettingsError`. -/
def rsParse (w : Str) : Option RsSettings :=
  if (s%"crgz").any (fun x => (w.filter (· == x)).length > 1) ||
      (w.filter (fun c => (s%"SAF").contains c)).length > 1 ||
      (w.filter (fun c => (s%"C21").contains c)).length > 1 ||
      (w.filter (fun c => !(s%"cSAFC21rgz").contains c)).length != 0 then none
  else
    some {
      generateCmevla := w.contains 'c'
      expRafsi := w.contains 'r'
      glides := w.contains 'g'
      allowMz := w.contains 'z'
      yHyphens := if w.contains 'A' then .allowY else if w.contains 'F' then .forceY else .standard
      consonants := if w.contains '2' then .twoConsonants else if w.contains '1' then .oneConsonant else .cluster }

/-- tarmi.rs:188-200, the body of the loop of `apply_flags`, with the macro `toggle!` (tarmi.rs:179-183). -/
def rsApplyFlag (s : RsSettings) (f : Char) : Option RsSettings :=
  if f = 'c' then some { s with generateCmevla := !s.generateCmevla }
  else if f = 'r' then some { s with expRafsi := !s.expRafsi }
  else if f = 'g' then some { s with glides := !s.glides }
  else if f = 'z' then some { s with allowMz := !s.allowMz }
  else if f = 'A' then some { s with yHyphens := if s.yHyphens = .allowY then .standard else .allowY }
  else if f = 'F' then some { s with yHyphens := if s.yHyphens = .forceY then .standard else .forceY }
  else if f = 'S' then some { s with yHyphens := .standard }
  else if f = '1' then some { s with consonants := if s.consonants = .oneConsonant then .cluster else .oneConsonant }
  else if f = '2' then some { s with consonants := if s.consonants = .twoConsonants then .cluster else .twoConsonants }
  else if f = 'C' then some { s with consonants := .cluster }
  else none

/-- tarmi.rs:187-202, the loop of `apply_flags`. -/
def rsApplyLoop : RsSettings → Str → Option RsSettings
  | s, [] => some s
  | s, f :: fs =>
    match rsApplyFlag s f with
    | some s' => rsApplyLoop s' fs
    | none => none

/-- tarmi.rs:178-203, `apply_flags`. The method changes `self`; here the changed settings are returned. Where it returns `None` it
has changed nothing, because it looks at all flags first (`C81_apply_flags` shows that the `None` of the loop is not reached). -/
def rsApplyFlags (s : RsSettings) (flags : Str) : Option RsSettings :=
  if !flags.all (fun c => (s%"cSAFC21rgz").contains c) then none
  else rsApplyLoop s flags

/-- tarmi.rs:105-113, the strings of `SETTINGS_ITERATOR`. -/
def rsSettingsStrings : List Str :=
  [[], s%"c"].flatMap fun a => [[], s%"A", s%"F"].flatMap fun b => [[], s%"2", s%"1"].flatMap fun c => [[], s%"r"].flatMap fun d =>
    [[], s%"g"].flatMap fun e => [[], s%"z"].map fun f => a ++ b ++ c ++ d ++ e ++ f

/-- tarmi.rs:105-113, `SETTINGS_ITERATOR`; `none` would be a panic. -/
def rsSettingsIterator : Option (List RsSettings) := rsSettingsStrings.mapM rsParse

end Jvotci
