import Verif.Py

/-!
# The letter-pair tables

Transcribed from `/repo/py/latkerlo_jvotci/data.py`, entry by entry and in the same order.
-/

namespace Jvotci

/-- data.py:8-188. -/
def VALID : List Str := [
  s%"bd", s%"bg", s%"bj", s%"bl", s%"bm", s%"bn", s%"br", s%"bv", s%"bz", s%"cf",
  s%"ck", s%"cl", s%"cm", s%"cn", s%"cp", s%"cr", s%"ct", s%"db", s%"dg", s%"dj",
  s%"dl", s%"dm", s%"dn", s%"dr", s%"dv", s%"dz", s%"fc", s%"fk", s%"fl", s%"fm",
  s%"fn", s%"fp", s%"fr", s%"fs", s%"ft", s%"fx", s%"gb", s%"gd", s%"gj", s%"gl",
  s%"gm", s%"gn", s%"gr", s%"gv", s%"gz", s%"jb", s%"jd", s%"jg", s%"jl", s%"jm",
  s%"jn", s%"jr", s%"jv", s%"kc", s%"kf", s%"kl", s%"km", s%"kn", s%"kp", s%"kr",
  s%"ks", s%"kt", s%"lb", s%"lc", s%"ld", s%"lf", s%"lg", s%"lj", s%"lk", s%"lm",
  s%"ln", s%"lp", s%"lr", s%"ls", s%"lt", s%"lv", s%"lx", s%"lz", s%"mb", s%"mc",
  s%"md", s%"mf", s%"mg", s%"mj", s%"mk", s%"ml", s%"mn", s%"mp", s%"mr", s%"ms",
  s%"mt", s%"mv", s%"mx", s%"nb", s%"nc", s%"nd", s%"nf", s%"ng", s%"nj", s%"nk",
  s%"nl", s%"nm", s%"np", s%"nr", s%"ns", s%"nt", s%"nv", s%"nx", s%"nz", s%"pc",
  s%"pf", s%"pk", s%"pl", s%"pm", s%"pn", s%"pr", s%"ps", s%"pt", s%"px", s%"rb",
  s%"rc", s%"rd", s%"rf", s%"rg", s%"rj", s%"rk", s%"rl", s%"rm", s%"rn", s%"rp",
  s%"rs", s%"rt", s%"rv", s%"rx", s%"rz", s%"sf", s%"sk", s%"sl", s%"sm", s%"sn",
  s%"sp", s%"sr", s%"st", s%"sx", s%"tc", s%"tf", s%"tk", s%"tl", s%"tm", s%"tn",
  s%"tp", s%"tr", s%"ts", s%"tx", s%"vb", s%"vd", s%"vg", s%"vj", s%"vl", s%"vm",
  s%"vn", s%"vr", s%"vz", s%"xf", s%"xl", s%"xm", s%"xn", s%"xp", s%"xr", s%"xs",
  s%"xt", s%"zb", s%"zd", s%"zg", s%"zl", s%"zm", s%"zn", s%"zr", s%"zv"
]

/-- data.py:190: `VALID + ["mz"]`. -/
def MZ_VALID : List Str := VALID ++ [s%"mz"]

/-- data.py:192-241. -/
def INITIAL : List Str := [
  s%"bl", s%"br", s%"cf", s%"ck", s%"cl", s%"cm", s%"cn", s%"cp", s%"cr", s%"ct",
  s%"dj", s%"dr", s%"dz", s%"fl", s%"fr", s%"gl", s%"gr", s%"jb", s%"jd", s%"jg",
  s%"jm", s%"jv", s%"kl", s%"kr", s%"ml", s%"mr", s%"pl", s%"pr", s%"sf", s%"sk",
  s%"sl", s%"sm", s%"sn", s%"sp", s%"sr", s%"st", s%"tc", s%"tr", s%"ts", s%"vl",
  s%"vr", s%"xl", s%"xr", s%"zb", s%"zd", s%"zg", s%"zm", s%"zv"
]

/-- data.py:243-260. -/
def ZIhEVLA_INITIAL : List Str := [
  s%"bl", s%"br", s%"dr", s%"fl", s%"fr", s%"gl", s%"gr", s%"kl", s%"kr", s%"ml",
  s%"mr", s%"pl", s%"pr", s%"tr", s%"vl", s%"vr"
]

/-- data.py:262-267. -/
def BANNED_TRIPLES : List Str := [
  s%"ndj", s%"ndz", s%"ntc", s%"nts"
]

/-- data.py:269-279. -/
def START_VOWEL_CLUSTERS : List Str := [
  s%"a", s%"e", s%"i", s%"o", s%"u", s%"au", s%"ai", s%"ei", s%"oi"
]

/-- data.py:281-300. -/
def FOLLOW_VOWEL_CLUSTERS : List Str := [
  s%"ia", s%"ie", s%"ii", s%"io", s%"iu", s%"iau", s%"iai", s%"iei", s%"ioi", s%"ua",
  s%"ue", s%"ui", s%"uo", s%"uu", s%"uau", s%"uai", s%"uei", s%"uoi"
]

/-- data.py:302-309. -/
def HYPHENS : List Str := [
  s%"r", s%"n", s%"y", s%"'y", s%"y'", s%"'y'"
]

end Jvotci
