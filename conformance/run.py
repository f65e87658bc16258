"""Run the model (not the code) on the repository's own test lists and compare.

The lists are read as text from /repo/tests. The model is compiled in a scratch directory (default /tmp/conf) with
the files built by Lake in /verif/lean, so run `lake build` there first. Not part of the proofs.
"""
import csv, json, os, subprocess, sys
REPO = "/repo/tests"; LEAN = "/verif/lean"; OUT = sys.argv[1] if len(sys.argv) > 1 else "/tmp/conf"
RUNNER = r'''
import Verif.Core
open Jvotci
def ys : String → YHyphens | "S" => .standard | "A" => .allowY | _ => .forceY
def cs : String → Consonants | "C" => .cluster | "2" => .twoConsonants | _ => .oneConsonant
def str (s : Str) : String := String.ofList s
def strs (l : List Str) : String := " ".intercalate (l.map str)
def inds (l : List (Nat × Nat)) : String := ",".intercalate (l.map fun p => s!"{p.1}-{p.2}")
def tn : BType → String | .gismu => "GISMU" | .zihevla => "ZIhEVLA" | .lujvo => "LUJVO" | .extendedLujvo => "EXTENDED" | .cmevla => "CMEVLA"
def answer (l : String) : String :=
  match l.splitOn "\t" with
  | [f, y, e, c, g, m, x] =>
    let s : Settings := { yHyphens := ys y, expRafsi := e == "1", consonants := cs c, glides := g == "1", allowMz := m == "1" }
    let err (e : Err) := "ERR " ++ (repr e).pretty
    match f with
    | "analyse" => match analyseBrivla .linked s x.toList with
      | .ok (t, ps) => tn t ++ "\t" ++ strs (ps.filter fun p => !HYPHENS.contains p) ++ "\t" ++ inds (getRafsiIndices ps)
      | .error e => err e
    | "veljvo" => match getVeljvo .linked s x.toList with
      | .ok t => strs t
      | .error e => err e
    | "lujvo" | "cmevla" => match getLujvoWithAnalytics .linked s (f == "cmevla") (.str x.toList) with
      | .ok (w, n, i) => str w ++ "\t" ++ toString n ++ "\t" ++ inds i
      | .error e => err e
    | _ => "?"
  | _ => "?"
def main : IO Unit := do
  let h ← IO.getStdin
  let mut l ← h.getLine
  while l != "" do
    IO.println (answer (l.splitOn "\n")[0]!)
    l ← h.getLine
'''
Q = []  # (query, check, description)
def q(f, s, x, check, why): Q.append(("\t".join((f,) + s + (x,)), check, why))
DEF = ("S", "0", "C", "0", "0")
SETTINGS = [(y, e, c, g, m) for y in "SAF" for e in "01" for c in "C21" for g in "01" for m in "01"]
def cond(t, s):
    if t == "ELSE" or not t: return True
    simple = {"ALLOW_Y": s[0] == "A", "FORCE_Y": s[0] == "F", "MORE_RAF": s[1] == "1", "TWO_CONSONANTS": s[2] == "2",
              "ONE_CONSONANT": s[2] == "1", "GLIDES": s[3] == "1", "YES_MZ": s[4] == "1"}
    if t in simple: return simple[t]
    i = 0
    if t[0] == "(":
        d = 1
        while d:
            i += 1
            d += {"(": 1, ")": -1}.get(t[i], 0)
        left = t[1:i]; i += 1
        if i == len(t): return cond(left, s)
    else:
        while t[i] not in "|&": i += 1
        left = t[:i].strip()
    op = t[i:].strip()[0]; right = t[i+1:].strip()
    a, b = cond(left, s), cond(right, s)
    return (a or b) if op == "|" else (a and b)
def rows(name):
    with open(os.path.join(REPO, name)) as f:
        for r in csv.reader(f, delimiter="\t"):
            if len(r) > 1 and r[0] and r[0][0] != "#": yield r
NB = "ERR Jvotci.Err.notBrivla"; DE = "ERR Jvotci.Err.decomposition"
for r in rows("basic_test_list.tsv"):
    k = r[2] if len(r) > 2 else None
    if r[1] and k != "JVOZBA":
        q("veljvo", DEF, r[0], (lambda o, e=r[1]: o == e if e != "FAIL" else o in (NB, DE)), r)
    if k != "KATNA":
        q("cmevla" if k == "CMEVLA" else "lujvo", DEF, r[1], (lambda o, e=r[0]: o.split("\t")[0] == e if e != "FAIL" else o.startswith("ERR")), r)
def groups(r, a, n): return [r[j:j+n] for j in range(a, len(r), n)]
def get(l, i): return l[i] if len(l) > i else ""
for r in rows("katna_test_list.tsv"):
    if not r[1]: continue
    for s in SETTINGS:
        cd = next(c for c in groups(r, 1, 5) if cond(c[0], s))
        if cd[1] == "NONE": q("analyse", s, r[0], (lambda o: o == NB), (r, s))
        else:
            q("analyse", s, r[0], (lambda o, cd=cd: o.split("\t")[:2] == [cd[1], get(cd, 2)] and (not get(cd, 4) or o.split("\t")[2] == cd[4])), (r, s))
        if cd[1] in ("LUJVO", "EXTENDED", "CMEVLA"): q("veljvo", s, r[0], (lambda o, cd=cd: o == get(cd, 3)), (r, s))
        else: q("veljvo", s, r[0], (lambda o: o in (NB, DE)), (r, s))
for r in rows("jvozba_test_list.tsv"):
    for s in SETTINGS:
        cd = next(c for c in groups(r, 2, 4) if cond(c[0], s))
        def chk(o, cd=cd):
            if cd[1] == "NONE": return o.startswith("ERR")
            p = o.split("\t")
            return p[0] == cd[1] and (not get(cd, 2).isdigit() or p[1] == cd[2]) and (not get(cd, 3) or p[2] == cd[3])
        s2 = (s[0], s[1], "C", "0", s[4]) if cd[1] == "NONE" else s  # the test drops these two arguments
        q("cmevla" if r[1] == "C" else "lujvo", s2, r[0], chk, (r, s))
for t, ws in json.load(open(os.path.join(REPO, "jvs_words.json"))).items():
    for w in ws:
        if w in ("posytmo", "gudjrati") or "\t" in w or "\n" in w: continue
        ok = {"LUJVO": ["LUJVO", "EXTENDED"], "OTHER": [NB, "CMEVLA"]}.get(t, [t])
        q("analyse", DEF, w, (lambda o, ok=ok: o.split("\t")[0] in ok), (t, w))
os.makedirs(OUT, exist_ok=True)
open(OUT + "/Runner.lean", "w").write(RUNNER)
open(OUT + "/in.txt", "w").write("".join(x[0] + "\n" for x in Q))
run = lambda *c: subprocess.run(c, cwd=LEAN, check=True)
mods = ["Py", "Data", "Rafsi", "Regex", "Tarmi", "Jvozba", "Core"]
cs = [f"{LEAN}/.lake/build/ir/Verif/{m}.c" for m in mods]
run("lake", "env", "lean", "-R", OUT, "-c", OUT + "/Runner.c", OUT + "/Runner.lean"); cs.append(OUT + "/Runner.c")
run("leanc", "-O2", "-o", OUT + "/runner", *cs)
out = subprocess.run([OUT + "/runner"], stdin=open(OUT + "/in.txt"), capture_output=True, text=True).stdout.split("\n")
bad = [(x[0], o, x[2]) for x, o in zip(Q, out) if not x[1](o)]
print(len(Q), "queries,", len(out) - 1, "answers,", len(bad), "differences")
for b in bad[:int(os.environ.get("SHOW", 20))]: print(b)
