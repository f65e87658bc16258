import Verif.Py

/-!
# The rafsi dictionary

Transcribed mechanically from `/repo/py/latkerlo_jvotci/rafsi.py` (one dict literal, 2021 entries, all keys
distinct, iteration order = source order).  Split into chunks of 100 entries for the elaborator.
-/

namespace Jvotci

/-- rafsi.py:2-101. -/
def rafsiChunk0 : List (Str × List Str) := [
  (s%"babda", []),
  (s%"bablo", []),
  (s%"backi", []),
  (s%"bacru", [s%"ba'u"]),
  (s%"badji", []),
  (s%"badna", []),
  (s%"badri", [s%"dri"]),
  (s%"bajra", [s%"baj"]),
  (s%"bakfu", [s%"baf"]),
  (s%"bakni", [s%"bak"]),
  (s%"bakri", []),
  (s%"baktu", []),
  (s%"balji", []),
  (s%"balni", []),
  (s%"balre", [s%"ba'e"]),
  (s%"balto", []),
  (s%"balvi", [s%"bav"]),
  (s%"bambu", []),
  (s%"bamri", []),
  (s%"bancu", [s%"bac"]),
  (s%"bandu", [s%"bad"]),
  (s%"banfi", []),
  (s%"bangu", [s%"ban", s%"bau"]),
  (s%"banli", [s%"bal", s%"ba'i"]),
  (s%"banro", [s%"ba'o"]),
  (s%"banxa", [s%"bax"]),
  (s%"banzu", [s%"baz"]),
  (s%"bapli", [s%"bap", s%"bai"]),
  (s%"barda", [s%"bra"]),
  (s%"bargu", [s%"bag"]),
  (s%"barja", []),
  (s%"barna", [s%"ba'a"]),
  (s%"bartu", [s%"bar"]),
  (s%"basfa", []),
  (s%"baslu", []),
  (s%"basna", []),
  (s%"basti", [s%"bas"]),
  (s%"batci", [s%"bat"]),
  (s%"batke", []),
  (s%"bavmi", []),
  (s%"bavza", []),
  (s%"baxso", []),
  (s%"bebna", [s%"beb"]),
  (s%"bekpi", []),
  (s%"belta", []),
  (s%"bemro", [s%"bem", s%"be'o"]),
  (s%"bende", [s%"bed", s%"be'e"]),
  (s%"bengo", [s%"beg"]),
  (s%"benji", [s%"bej", s%"be'i"]),
  (s%"benre", []),
  (s%"benzo", []),
  (s%"bergu", []),
  (s%"bersa", [s%"bes", s%"be'a"]),
  (s%"berti", [s%"ber"]),
  (s%"besna", [s%"ben"]),
  (s%"besto", []),
  (s%"betfu", [s%"bef", s%"be'u"]),
  (s%"betka", []),
  (s%"betri", [s%"bet"]),
  (s%"bevri", [s%"bev", s%"bei"]),
  (s%"bi", [s%"biv"]),
  (s%"bidju", []),
  (s%"bifce", [s%"bic"]),
  (s%"bi'i", [s%"biz"]),
  (s%"bikla", [s%"bik"]),
  (s%"bilbo", []),
  (s%"bilga", [s%"big"]),
  (s%"bilma", [s%"bi'a"]),
  (s%"bilni", [s%"bil"]),
  (s%"bindo", [s%"bid"]),
  (s%"binma", []),
  (s%"binra", []),
  (s%"binxo", [s%"bix", s%"bi'o"]),
  (s%"birco", []),
  (s%"birje", []),
  (s%"birka", [s%"bir"]),
  (s%"birti", [s%"bit"]),
  (s%"bisli", [s%"bis"]),
  (s%"bitco", []),
  (s%"bitmu", [s%"bim", s%"bi'u"]),
  (s%"bitni", []),
  (s%"blabi", [s%"lab"]),
  (s%"blaci", []),
  (s%"blanu", [s%"bla"]),
  (s%"bliku", [s%"bli"]),
  (s%"blina", []),
  (s%"blolo", []),
  (s%"bloti", [s%"lot", s%"lo'i", s%"blo"]),
  (s%"bluji", []),
  (s%"bo", [s%"bor"]),
  (s%"bolci", [s%"bol", s%"boi"]),
  (s%"bongu", [s%"bog", s%"bo'u"]),
  (s%"bonta", []),
  (s%"borma", []),
  (s%"boske", []),
  (s%"botpi", [s%"bot", s%"bo'i"]),
  (s%"boxfo", [s%"bof", s%"bo'o"]),
  (s%"boxna", [s%"bon", s%"bo'a"]),
  (s%"bradi", []),
  (s%"brano", [])
]

/-- rafsi.py:102-201. -/
def rafsiChunk1 : List (Str × List Str) := [
  (s%"bratu", []),
  (s%"bravi", []),
  (s%"brazo", [s%"raz"]),
  (s%"bredi", [s%"red", s%"bre"]),
  (s%"bridi", [s%"bri"]),
  (s%"brife", [s%"bif", s%"bi'e"]),
  (s%"briju", [s%"bij"]),
  (s%"brito", [s%"rit"]),
  (s%"brivo", []),
  (s%"broda", [s%"rod"]),
  (s%"brode", [s%"bo'e"]),
  (s%"brodi", []),
  (s%"brodo", []),
  (s%"brodu", []),
  (s%"bruci", []),
  (s%"bruna", [s%"bun", s%"bu'a"]),
  (s%"bu", [s%"bus", s%"bu'i"]),
  (s%"bu'a", [s%"bul"]),
  (s%"budjo", [s%"buj", s%"bu'o"]),
  (s%"budza", []),
  (s%"bukpu", [s%"buk", s%"bu'u"]),
  (s%"bumru", [s%"bum"]),
  (s%"bunda", [s%"bud"]),
  (s%"bunre", [s%"bur", s%"bu'e"]),
  (s%"buntu", []),
  (s%"bunxa", []),
  (s%"burcu", [s%"bru"]),
  (s%"burka", []),
  (s%"burna", []),
  (s%"buvla", []),
  (s%"ca'a", [s%"caz"]),
  (s%"cabna", [s%"cab"]),
  (s%"cabra", [s%"ca'a"]),
  (s%"cacra", []),
  (s%"cadga", []),
  (s%"cadma", []),
  (s%"cadzu", [s%"dzu"]),
  (s%"cafne", [s%"caf"]),
  (s%"cagna", []),
  (s%"cajni", []),
  (s%"cakla", []),
  (s%"calku", [s%"cak"]),
  (s%"calse", []),
  (s%"campu", []),
  (s%"canci", []),
  (s%"cando", [s%"cad"]),
  (s%"cange", [s%"cag"]),
  (s%"canja", [s%"caj"]),
  (s%"canko", [s%"ca'o"]),
  (s%"canlu", [s%"cal", s%"ca'u"]),
  (s%"canma", []),
  (s%"canpa", [s%"cna"]),
  (s%"canre", [s%"can"]),
  (s%"canti", []),
  (s%"carce", []),
  (s%"carfu", []),
  (s%"carmi", [s%"cam", s%"cai"]),
  (s%"carna", [s%"car"]),
  (s%"cartu", [s%"cat"]),
  (s%"carvi", [s%"cav"]),
  (s%"casnu", [s%"snu"]),
  (s%"catke", [s%"ca'e"]),
  (s%"catlu", [s%"cta"]),
  (s%"catni", [s%"ca'i"]),
  (s%"catra", []),
  (s%"caxno", [s%"cax"]),
  (s%"ce", [s%"cec"]),
  (s%"cecla", [s%"cel", s%"ce'a"]),
  (s%"cecmu", [s%"cem", s%"ce'u"]),
  (s%"cedra", []),
  (s%"ce'i", [s%"cez"]),
  (s%"celdi", [s%"cle"]),
  (s%"celxa", []),
  (s%"cenba", [s%"cne"]),
  (s%"cendo", []),
  (s%"censa", [s%"ces"]),
  (s%"centi", [s%"cen"]),
  (s%"ce'o", [s%"ce'o"]),
  (s%"cerda", [s%"ced"]),
  (s%"cerni", [s%"cer"]),
  (s%"certu", [s%"cre"]),
  (s%"cevni", [s%"cev", s%"cei"]),
  (s%"cfale", []),
  (s%"cfari", [s%"cfa"]),
  (s%"cfika", [s%"fik", s%"fi'a"]),
  (s%"cfila", [s%"cfi"]),
  (s%"cfine", []),
  (s%"cfipu", [s%"fi'u"]),
  (s%"ci", [s%"cib"]),
  (s%"ciblu", [s%"blu"]),
  (s%"cicna", []),
  (s%"cidja", [s%"dja"]),
  (s%"cidni", [s%"cid"]),
  (s%"cidro", [s%"dro"]),
  (s%"cifnu", [s%"cif"]),
  (s%"cigla", [s%"cig"]),
  (s%"cikna", [s%"cik"]),
  (s%"cikre", []),
  (s%"ciksi", [s%"cki"]),
  (s%"cilce", [s%"cic"])
]

/-- rafsi.py:202-301. -/
def rafsiChunk2 : List (Str × List Str) := [
  (s%"cilfu", []),
  (s%"cilga", []),
  (s%"cilmo", [s%"cim"]),
  (s%"cilre", [s%"cli"]),
  (s%"cilta", [s%"cil"]),
  (s%"cimde", []),
  (s%"cimle", []),
  (s%"cimni", []),
  (s%"cimra", []),
  (s%"cinba", []),
  (s%"cindu", []),
  (s%"cinfo", []),
  (s%"cinje", [s%"cij"]),
  (s%"cinki", []),
  (s%"cinla", []),
  (s%"cinmo", [s%"cni"]),
  (s%"cinri", [s%"ci'i"]),
  (s%"cinse", [s%"cin"]),
  (s%"cinta", []),
  (s%"cinza", []),
  (s%"cipni", [s%"cpi"]),
  (s%"cipra", [s%"cip"]),
  (s%"cirko", [s%"cri"]),
  (s%"cirla", []),
  (s%"ciska", [s%"ci'a"]),
  (s%"cisma", []),
  (s%"cisni", []),
  (s%"ciste", [s%"ci'e"]),
  (s%"citka", [s%"cti"]),
  (s%"citno", [s%"cit", s%"ci'o"]),
  (s%"citri", [s%"cir"]),
  (s%"citsi", []),
  (s%"civla", [s%"civ"]),
  (s%"cizra", [s%"ciz"]),
  (s%"ckabu", []),
  (s%"ckafi", [s%"kaf"]),
  (s%"ckaji", [s%"kai"]),
  (s%"ckana", [s%"cka"]),
  (s%"ckape", [s%"cap"]),
  (s%"ckasu", [s%"cas"]),
  (s%"ckeji", [s%"kej", s%"cke"]),
  (s%"ckeno", []),
  (s%"ckiku", [s%"kik"]),
  (s%"ckilu", [s%"ci'u"]),
  (s%"ckini", [s%"ki'i"]),
  (s%"ckire", [s%"kir"]),
  (s%"ckopi", []),
  (s%"ckule", [s%"kul", s%"cu'e"]),
  (s%"ckunu", [s%"ku'u"]),
  (s%"cladu", [s%"lau"]),
  (s%"clafi", []),
  (s%"clani", [s%"cla"]),
  (s%"claxu", [s%"cau"]),
  (s%"clenu", []),
  (s%"cletu", []),
  (s%"clika", []),
  (s%"clinu", []),
  (s%"clira", [s%"lir"]),
  (s%"clite", [s%"lit"]),
  (s%"cliva", [s%"liv", s%"li'a"]),
  (s%"clupa", [s%"cup"]),
  (s%"cmaci", []),
  (s%"cmalu", [s%"cma"]),
  (s%"cmana", [s%"ma'a"]),
  (s%"cmavo", [s%"ma'o"]),
  (s%"cmene", [s%"me'e", s%"cme"]),
  (s%"cmero", []),
  (s%"cmeta", []),
  (s%"cmevo", []),
  (s%"cmiju", []),
  (s%"cmila", [s%"mi'a"]),
  (s%"cmima", [s%"mim", s%"cmi"]),
  (s%"cmoni", [s%"co'i", s%"cmo"]),
  (s%"cnano", [s%"na'o"]),
  (s%"cnata", []),
  (s%"cnebo", [s%"neb", s%"ne'o"]),
  (s%"cnemu", [s%"nem", s%"ne'u"]),
  (s%"cnici", [s%"nic"]),
  (s%"cnida", []),
  (s%"cnino", [s%"nin", s%"ni'o"]),
  (s%"cnisa", [s%"nis"]),
  (s%"cnita", [s%"nit", s%"ni'a"]),
  (s%"co", [s%"col"]),
  (s%"co'a", [s%"co'a"]),
  (s%"co'e", [s%"com", s%"co'e"]),
  (s%"cokcu", [s%"cko"]),
  (s%"cokte", []),
  (s%"condi", [s%"con", s%"cno", s%"coi"]),
  (s%"conka", []),
  (s%"corci", [s%"coc"]),
  (s%"cortu", [s%"cor", s%"cro"]),
  (s%"cotci", []),
  (s%"co'u", [s%"co'u"]),
  (s%"cpacu", [s%"cpa"]),
  (s%"cpana", []),
  (s%"cpare", [s%"par"]),
  (s%"cpedu", [s%"cpe"]),
  (s%"cpina", []),
  (s%"cpixa", []),
  (s%"cradi", [])
]

/-- rafsi.py:302-401. -/
def rafsiChunk3 : List (Str × List Str) := [
  (s%"crami", []),
  (s%"crane", [s%"cra"]),
  (s%"cravi", []),
  (s%"creka", [s%"cek"]),
  (s%"crepu", [s%"rep"]),
  (s%"creze", []),
  (s%"cribe", [s%"rib"]),
  (s%"crida", [s%"rid"]),
  (s%"crino", [s%"ri'o"]),
  (s%"cripu", [s%"rip"]),
  (s%"crisa", [s%"cis"]),
  (s%"critu", []),
  (s%"ctaru", []),
  (s%"ctebi", [s%"teb"]),
  (s%"cteki", [s%"tek", s%"ce'i"]),
  (s%"ctera", []),
  (s%"ctile", []),
  (s%"ctino", [s%"ti'o"]),
  (s%"ctuca", [s%"ctu"]),
  (s%"cukla", [s%"cuk"]),
  (s%"cukre", []),
  (s%"cukse", []),
  (s%"cukta", [s%"cku"]),
  (s%"culno", [s%"clu"]),
  (s%"cumba", []),
  (s%"cumki", [s%"cum", s%"cu'i"]),
  (s%"cumla", [s%"cul"]),
  (s%"cunmi", []),
  (s%"cunso", [s%"cun", s%"cu'o"]),
  (s%"cuntu", [s%"cu'u"]),
  (s%"cupra", [s%"pra"]),
  (s%"curmi", [s%"cru"]),
  (s%"curnu", [s%"cur"]),
  (s%"curve", [s%"cuv"]),
  (s%"cusku", [s%"cus", s%"sku"]),
  (s%"cusna", []),
  (s%"cuspe", []),
  (s%"cutci", [s%"cuc"]),
  (s%"cutne", [s%"cut"]),
  (s%"cuxna", [s%"cux", s%"cu'a"]),
  (s%"da", [s%"dav", s%"dza"]),
  (s%"da'a", [s%"daz"]),
  (s%"dacru", [s%"dac"]),
  (s%"dacti", [s%"dai"]),
  (s%"dadjo", [s%"daj"]),
  (s%"dajbu", []),
  (s%"dajne", []),
  (s%"dakfu", [s%"dak"]),
  (s%"dakli", []),
  (s%"dalti", []),
  (s%"damba", [s%"dab", s%"da'a"]),
  (s%"damko", []),
  (s%"damri", []),
  (s%"danci", []),
  (s%"dandu", [s%"dad"]),
  (s%"danfu", [s%"daf"]),
  (s%"danke", []),
  (s%"danlu", [s%"dal", s%"da'u"]),
  (s%"danmo", [s%"dam"]),
  (s%"danre", [s%"da'e"]),
  (s%"dansu", []),
  (s%"danti", [s%"dan"]),
  (s%"daplu", [s%"plu"]),
  (s%"dapma", [s%"dap"]),
  (s%"darca", []),
  (s%"dardu", []),
  (s%"dargu", [s%"dag"]),
  (s%"darlu", [s%"dau"]),
  (s%"darno", [s%"dar", s%"da'o"]),
  (s%"darsi", []),
  (s%"darxi", [s%"dax", s%"da'i"]),
  (s%"daski", []),
  (s%"dasni", [s%"das"]),
  (s%"daspo", [s%"spo"]),
  (s%"dasri", [s%"sri"]),
  (s%"datca", []),
  (s%"datka", []),
  (s%"datni", []),
  (s%"datro", []),
  (s%"datru", []),
  (s%"datxo", []),
  (s%"decti", [s%"dec"]),
  (s%"degji", [s%"deg"]),
  (s%"dejni", [s%"dej"]),
  (s%"dekpu", []),
  (s%"dekto", [s%"dek"]),
  (s%"delca", []),
  (s%"delno", [s%"del", s%"de'o"]),
  (s%"delta", []),
  (s%"dembi", [s%"deb"]),
  (s%"denci", [s%"den", s%"de'i"]),
  (s%"dendi", []),
  (s%"denmi", [s%"dem"]),
  (s%"denpa", [s%"dep", s%"de'a"]),
  (s%"dertu", [s%"der", s%"de'u"]),
  (s%"derxi", [s%"dre"]),
  (s%"desku", [s%"des"]),
  (s%"detri", [s%"det"]),
  (s%"dicma", []),
  (s%"dicra", [s%"dir"])
]

/-- rafsi.py:402-501. -/
def rafsiChunk4 : List (Str × List Str) := [
  (s%"didni", []),
  (s%"digno", []),
  (s%"dikca", [s%"dic"]),
  (s%"diklo", [s%"klo"]),
  (s%"dikni", [s%"dik"]),
  (s%"dilcu", []),
  (s%"dildo", []),
  (s%"dilma", []),
  (s%"dilnu", [s%"dil"]),
  (s%"dimna", [s%"dim"]),
  (s%"dindi", [s%"did"]),
  (s%"dinju", [s%"dij", s%"di'u"]),
  (s%"dinko", [s%"di'o"]),
  (s%"dinso", [s%"dis"]),
  (s%"dinti", []),
  (s%"dirba", [s%"dib"]),
  (s%"dirce", [s%"di'e"]),
  (s%"dirgo", [s%"dig"]),
  (s%"disko", []),
  (s%"ditcu", [s%"dit"]),
  (s%"divzi", []),
  (s%"dizlo", [s%"diz", s%"dzi"]),
  (s%"djacu", [s%"jac", s%"jau"]),
  (s%"djedi", [s%"dje", s%"dei"]),
  (s%"djica", [s%"dji"]),
  (s%"djika", []),
  (s%"djine", [s%"jin"]),
  (s%"djuno", [s%"jun", s%"ju'o"]),
  (s%"do", [s%"don", s%"doi"]),
  (s%"dokcu", [s%"do'u"]),
  (s%"dolna", [s%"dol"]),
  (s%"donri", [s%"dor", s%"do'i"]),
  (s%"dotco", [s%"dot", s%"do'o"]),
  (s%"draci", []),
  (s%"drani", [s%"dra"]),
  (s%"drata", [s%"dat"]),
  (s%"drisu", []),
  (s%"drudi", [s%"rud", s%"dru"]),
  (s%"du", [s%"dub", s%"du'o"]),
  (s%"dugri", [s%"dug"]),
  (s%"dukni", []),
  (s%"dukse", [s%"dus", s%"du'e"]),
  (s%"dukti", [s%"dut"]),
  (s%"dulnu", []),
  (s%"dunda", [s%"dud", s%"du'a"]),
  (s%"dunja", [s%"duj"]),
  (s%"dunku", [s%"duk", s%"du'u"]),
  (s%"dunli", [s%"dun", s%"du'i"]),
  (s%"dunra", [s%"dur"]),
  (s%"durna", []),
  (s%"dutso", []),
  (s%"du'u", [s%"dum"]),
  (s%"dzama", []),
  (s%"dzena", [s%"dze"]),
  (s%"dzipo", [s%"zip", s%"zi'o"]),
  (s%"dzoli", [s%"dzo"]),
  (s%"dzuli", []),
  (s%"dzuma", []),
  (s%"facki", [s%"fak", s%"fa'i"]),
  (s%"facni", []),
  (s%"fadni", [s%"fad"]),
  (s%"fagri", [s%"fag"]),
  (s%"falnu", [s%"fan"]),
  (s%"famti", []),
  (s%"fancu", []),
  (s%"fange", []),
  (s%"fanji", []),
  (s%"fanmo", [s%"fam", s%"fa'o"]),
  (s%"fanri", []),
  (s%"fanta", []),
  (s%"fanva", []),
  (s%"fanza", [s%"faz"]),
  (s%"fapro", [s%"fap", s%"pro"]),
  (s%"fardu", []),
  (s%"farka", []),
  (s%"farlu", [s%"fal", s%"fa'u"]),
  (s%"farna", [s%"far", s%"fa'a"]),
  (s%"farvi", [s%"fav"]),
  (s%"fasnu", [s%"fau"]),
  (s%"fatci", [s%"fac"]),
  (s%"fatne", [s%"fat", s%"fa'e"]),
  (s%"fatri", [s%"fai"]),
  (s%"febvi", [s%"feb"]),
  (s%"fegli", []),
  (s%"femti", [s%"fem"]),
  (s%"fendi", [s%"fed"]),
  (s%"fenfa", []),
  (s%"fengu", [s%"feg", s%"fe'u"]),
  (s%"fenki", [s%"fek"]),
  (s%"fenra", [s%"fer", s%"fe'a"]),
  (s%"fenso", [s%"fen", s%"fe'o"]),
  (s%"fepni", [s%"fep", s%"fei"]),
  (s%"fepri", []),
  (s%"ferti", [s%"fre"]),
  (s%"festi", [s%"fes"]),
  (s%"fetsi", [s%"fet", s%"fe'i"]),
  (s%"fibra", []),
  (s%"fidna", [s%"fid"]),
  (s%"figre", [s%"fig"]),
  (s%"filso", [s%"fis"])
]

/-- rafsi.py:502-601. -/
def rafsiChunk5 : List (Str × List Str) := [
  (s%"finpe", [s%"fip", s%"fi'e"]),
  (s%"finti", [s%"fin", s%"fi'i"]),
  (s%"firca", []),
  (s%"fisli", []),
  (s%"fizbu", [s%"zbu"]),
  (s%"fizde", [s%"fiz"]),
  (s%"flaci", []),
  (s%"flalu", [s%"fla"]),
  (s%"flani", []),
  (s%"flecu", [s%"fle"]),
  (s%"flese", [s%"les"]),
  (s%"fliba", [s%"fli"]),
  (s%"flipo", []),
  (s%"flira", [s%"fir"]),
  (s%"fo'a", [s%"fo'a"]),
  (s%"fo'e", [s%"fo'e"]),
  (s%"fo'i", [s%"fo'i"]),
  (s%"foldi", [s%"flo", s%"foi"]),
  (s%"fonmo", [s%"fom", s%"fo'o"]),
  (s%"fonto", []),
  (s%"fonxa", [s%"fon"]),
  (s%"forca", [s%"fro"]),
  (s%"forse", []),
  (s%"fraso", [s%"fas"]),
  (s%"frati", [s%"fra"]),
  (s%"fraxu", [s%"fax"]),
  (s%"frica", [s%"fic"]),
  (s%"friko", [s%"fi'o"]),
  (s%"frili", [s%"fil"]),
  (s%"frinu", []),
  (s%"friti", [s%"fit"]),
  (s%"frumu", [s%"fru"]),
  (s%"fugvo", []),
  (s%"fukpi", [s%"fuk", s%"fu'i"]),
  (s%"fulta", [s%"ful", s%"flu"]),
  (s%"funca", [s%"fun", s%"fu'a"]),
  (s%"fusra", [s%"fur"]),
  (s%"fuvla", []),
  (s%"fuzme", [s%"fuz", s%"fu'e"]),
  (s%"gacri", [s%"gai"]),
  (s%"gadri", [s%"gad"]),
  (s%"galfi", [s%"gaf", s%"ga'i"]),
  (s%"galki", []),
  (s%"galtu", [s%"gal", s%"ga'u"]),
  (s%"galxe", []),
  (s%"ganda", []),
  (s%"ganlo", [s%"ga'o"]),
  (s%"ganra", [s%"gan"]),
  (s%"ganse", [s%"gas", s%"ga'e"]),
  (s%"ganti", []),
  (s%"ganvi", []),
  (s%"ganxo", [s%"gax"]),
  (s%"ganzu", [s%"gaz"]),
  (s%"gapci", [s%"gac"]),
  (s%"gapru", [s%"gap"]),
  (s%"gardu", []),
  (s%"garna", [s%"gar"]),
  (s%"gasnu", [s%"gau"]),
  (s%"gaspo", []),
  (s%"gasta", [s%"gat"]),
  (s%"gelga", []),
  (s%"genja", [s%"gej"]),
  (s%"gento", [s%"get", s%"ge'o"]),
  (s%"genxu", [s%"gex"]),
  (s%"gerku", [s%"ger", s%"ge'u"]),
  (s%"germo", [s%"gem"]),
  (s%"gerna", [s%"gen", s%"ge'a"]),
  (s%"gicmu", []),
  (s%"gidva", [s%"gid", s%"gi'a"]),
  (s%"gigdo", [s%"gig", s%"gi'o"]),
  (s%"ginka", [s%"gik"]),
  (s%"girzu", [s%"gir", s%"gri"]),
  (s%"gismu", [s%"gim", s%"gi'u"]),
  (s%"glare", [s%"gla"]),
  (s%"gleki", [s%"gek", s%"gei"]),
  (s%"gletu", [s%"let", s%"gle"]),
  (s%"glico", [s%"gic", s%"gli"]),
  (s%"glife", []),
  (s%"glosa", []),
  (s%"gluli", []),
  (s%"gluta", [s%"glu"]),
  (s%"gocti", [s%"goc"]),
  (s%"gomja", [s%"gom"]),
  (s%"gomsi", []),
  (s%"gonte", []),
  (s%"gotro", [s%"got"]),
  (s%"gradu", [s%"rau"]),
  (s%"grafu", []),
  (s%"grake", [s%"gra"]),
  (s%"grame", []),
  (s%"grana", [s%"ga'a"]),
  (s%"grasu", [s%"ras"]),
  (s%"grava", [s%"gav"]),
  (s%"greku", [s%"rek"]),
  (s%"grusi", [s%"rus"]),
  (s%"grute", [s%"rut"]),
  (s%"gubni", [s%"gub"]),
  (s%"gugde", [s%"gug", s%"gu'e"]),
  (s%"gugle", []),
  (s%"gumri", [])
]

/-- rafsi.py:602-701. -/
def rafsiChunk6 : List (Str × List Str) := [
  (s%"gundi", [s%"gud"]),
  (s%"gunka", [s%"gun", s%"gu'a"]),
  (s%"gunma", [s%"gum"]),
  (s%"gunro", [s%"gur", s%"gu'o"]),
  (s%"gunse", []),
  (s%"gunta", [s%"gut"]),
  (s%"gurni", [s%"gru"]),
  (s%"guska", [s%"guk"]),
  (s%"gusni", [s%"gus", s%"gu'i"]),
  (s%"gusta", []),
  (s%"gutci", [s%"guc"]),
  (s%"gutra", []),
  (s%"guzme", [s%"guz", s%"zme"]),
  (s%"ja", [s%"jav"]),
  (s%"jabre", []),
  (s%"jadji", []),
  (s%"jadni", [s%"jad", s%"ja'i"]),
  (s%"jai", [s%"jax"]),
  (s%"jakne", []),
  (s%"jaktu", []),
  (s%"jaldi", []),
  (s%"jalge", [s%"jag", s%"ja'e"]),
  (s%"jalna", []),
  (s%"jalra", []),
  (s%"jamfu", [s%"jaf", s%"jma"]),
  (s%"jamna", [s%"jam"]),
  (s%"janbe", [s%"jab"]),
  (s%"janco", [s%"jan"]),
  (s%"janka", []),
  (s%"janli", [s%"jal"]),
  (s%"jansu", [s%"jas"]),
  (s%"janta", [s%"jat"]),
  (s%"jarbu", []),
  (s%"jarco", [s%"ja'o"]),
  (s%"jarki", [s%"jak"]),
  (s%"jaspu", [s%"jap"]),
  (s%"jatna", [s%"ja'a"]),
  (s%"jatsu", []),
  (s%"javni", [s%"jva"]),
  (s%"jbama", [s%"bam"]),
  (s%"jbari", [s%"jba"]),
  (s%"jbena", [s%"jbe"]),
  (s%"jbera", [s%"jer"]),
  (s%"jbini", [s%"bin", s%"bi'i"]),
  (s%"jbobo", []),
  (s%"jdari", [s%"jar"]),
  (s%"jdice", [s%"jdi"]),
  (s%"jdika", []),
  (s%"jdima", [s%"di'a"]),
  (s%"jdini", [s%"din", s%"di'i"]),
  (s%"jduli", [s%"dul", s%"jdu"]),
  (s%"je", [s%"jev", s%"jve"]),
  (s%"jecta", [s%"jec", s%"je'a"]),
  (s%"jeftu", [s%"jef"]),
  (s%"jegvo", [s%"jeg", s%"je'o"]),
  (s%"jei", [s%"jez"]),
  (s%"jelca", [s%"jel"]),
  (s%"jemna", [s%"jme"]),
  (s%"jenca", [s%"jen"]),
  (s%"jendu", [s%"jed"]),
  (s%"jenje", []),
  (s%"jenmi", [s%"jem", s%"jei"]),
  (s%"jensi", []),
  (s%"jerna", []),
  (s%"jersi", [s%"je'i"]),
  (s%"jerxo", [s%"jex"]),
  (s%"jesni", [s%"jes"]),
  (s%"jetce", [s%"je'e"]),
  (s%"jetnu", [s%"jet", s%"je'u"]),
  (s%"jgalu", [s%"ja'u"]),
  (s%"jganu", [s%"jga"]),
  (s%"jgari", [s%"jai"]),
  (s%"jgena", [s%"jge"]),
  (s%"jgina", [s%"gin"]),
  (s%"jgira", [s%"jgi"]),
  (s%"jgita", [s%"git"]),
  (s%"jguna", [s%"jgu"]),
  (s%"jguvi", []),
  (s%"jibni", [s%"jbi"]),
  (s%"jibri", [s%"jib"]),
  (s%"jicfo", [s%"cfo"]),
  (s%"jicla", []),
  (s%"jicmu", [s%"cmu"]),
  (s%"jidge", [s%"jid"]),
  (s%"jijgi", []),
  (s%"jijnu", [s%"jij"]),
  (s%"jikca", [s%"jik"]),
  (s%"jikfi", []),
  (s%"jikni", []),
  (s%"jikru", []),
  (s%"jilka", [s%"jil"]),
  (s%"jilra", []),
  (s%"jimca", [s%"jic"]),
  (s%"jimpe", [s%"jmi"]),
  (s%"jimte", [s%"jit"]),
  (s%"jinci", []),
  (s%"jinda", []),
  (s%"jinga", [s%"jig", s%"ji'a"]),
  (s%"jinku", []),
  (s%"jinme", [s%"jim"])
]

/-- rafsi.py:702-801. -/
def rafsiChunk7 : List (Str × List Str) := [
  (s%"jinru", [s%"jir"]),
  (s%"jinsa", [s%"jis"]),
  (s%"jinto", []),
  (s%"jinvi", [s%"jiv", s%"ji'i"]),
  (s%"jinzi", [s%"jiz"]),
  (s%"jipci", []),
  (s%"jipno", [s%"jip", s%"ji'o"]),
  (s%"jirna", []),
  (s%"jisra", []),
  (s%"jitfa", [s%"jif"]),
  (s%"jitni", []),
  (s%"jitro", [s%"tro"]),
  (s%"jivbu", []),
  (s%"jivna", [s%"jvi"]),
  (s%"jmaji", [s%"jaj"]),
  (s%"jmedu", []),
  (s%"jmice", []),
  (s%"jmifa", []),
  (s%"jmina", [s%"min"]),
  (s%"jmite", []),
  (s%"jmive", [s%"miv", s%"ji'e"]),
  (s%"jo", [s%"jov"]),
  (s%"jo'e", [s%"jom"]),
  (s%"joi", [s%"jol", s%"joi"]),
  (s%"jonse", [s%"jos"]),
  (s%"jordo", [s%"jor", s%"jo'o"]),
  (s%"jorne", [s%"jon", s%"jo'e"]),
  (s%"jo'u", [s%"jo'u"]),
  (s%"ju", [s%"juv"]),
  (s%"jubme", [s%"jub", s%"jbu"]),
  (s%"judri", []),
  (s%"jufra", [s%"juf", s%"ju'a"]),
  (s%"jukni", [s%"juk"]),
  (s%"jukpa", [s%"jup"]),
  (s%"julne", [s%"ju'e"]),
  (s%"julro", []),
  (s%"jundi", [s%"jud", s%"ju'i"]),
  (s%"jungo", [s%"jug"]),
  (s%"junla", [s%"jul"]),
  (s%"junri", [s%"jur"]),
  (s%"junta", []),
  (s%"jurme", [s%"jum"]),
  (s%"jursa", [s%"jus"]),
  (s%"jutsi", [s%"jut"]),
  (s%"juxre", [s%"jux"]),
  (s%"jvinu", [s%"vin", s%"ji'u"]),
  (s%"jviso", []),
  (s%"jvoso", [s%"vos"]),
  (s%"ka", [s%"kam"]),
  (s%"kabri", []),
  (s%"kacma", []),
  (s%"kadno", []),
  (s%"kafke", []),
  (s%"kagni", [s%"kag"]),
  (s%"kajde", [s%"jde"]),
  (s%"kajna", []),
  (s%"kakne", [s%"ka'e"]),
  (s%"kakpa", []),
  (s%"kakti", []),
  (s%"kalci", []),
  (s%"kalpi", []),
  (s%"kalri", [s%"kar"]),
  (s%"kalsa", [s%"kas"]),
  (s%"kalte", [s%"kat"]),
  (s%"kamju", []),
  (s%"kamni", []),
  (s%"kampu", [s%"kau"]),
  (s%"kamre", []),
  (s%"kamro", []),
  (s%"kanba", []),
  (s%"kancu", [s%"kac"]),
  (s%"kandi", [s%"kad"]),
  (s%"kanji", [s%"kaj"]),
  (s%"kanla", [s%"kal"]),
  (s%"kanpe", []),
  (s%"kanro", [s%"ka'o"]),
  (s%"kansa", [s%"kan"]),
  (s%"kantu", [s%"ka'u"]),
  (s%"kanxe", [s%"kax"]),
  (s%"kapli", []),
  (s%"kapsi", []),
  (s%"karbi", [s%"kab"]),
  (s%"karce", []),
  (s%"karda", []),
  (s%"kargu", []),
  (s%"karki", []),
  (s%"karli", []),
  (s%"karmo", []),
  (s%"karni", []),
  (s%"karpa", []),
  (s%"katci", []),
  (s%"katna", [s%"ka'a"]),
  (s%"katso", []),
  (s%"kavbu", [s%"kav"]),
  (s%"kavzi", []),
  (s%"kazmi", []),
  (s%"kazra", [s%"kaz"]),
  (s%"ke", [s%"kem"]),
  (s%"kebzo", []),
  (s%"kecti", [s%"kec", s%"ke'i"])
]

/-- rafsi.py:802-901. -/
def rafsiChunk8 : List (Str × List Str) := [
  (s%"ke'e", [s%"kep", s%"ke'e"]),
  (s%"kei", [s%"kez"]),
  (s%"kekli", [s%"kek"]),
  (s%"kekti", []),
  (s%"kelci", [s%"kel", s%"kei"]),
  (s%"kelto", []),
  (s%"kelvo", [s%"ke'o"]),
  (s%"kenka", []),
  (s%"kenra", [s%"ken"]),
  (s%"kensa", [s%"kes"]),
  (s%"kerfa", [s%"kre"]),
  (s%"kerlo", [s%"ker"]),
  (s%"kerni", []),
  (s%"kesfi", []),
  (s%"kesri", []),
  (s%"ketco", [s%"ket", s%"tco"]),
  (s%"ketli", []),
  (s%"ketro", []),
  (s%"ketsu", []),
  (s%"kevna", [s%"kev", s%"ke'a"]),
  (s%"kibro", [s%"kib"]),
  (s%"kicne", [s%"kic", s%"ki'e"]),
  (s%"kicra", []),
  (s%"kijno", [s%"kij"]),
  (s%"kilga", []),
  (s%"kilma", [s%"kim"]),
  (s%"kilto", [s%"ki'o"]),
  (s%"kinda", []),
  (s%"kinfi", []),
  (s%"kinli", [s%"kil"]),
  (s%"kinmu", []),
  (s%"kinra", []),
  (s%"kipsi", []),
  (s%"kisto", [s%"kis"]),
  (s%"klaji", [s%"laj"]),
  (s%"klaku", [s%"kak"]),
  (s%"klama", [s%"kla"]),
  (s%"klani", [s%"lai"]),
  (s%"klaso", []),
  (s%"klesi", [s%"kle", s%"lei"]),
  (s%"kligo", [s%"kig"]),
  (s%"kliki", []),
  (s%"klina", [s%"kli"]),
  (s%"kliru", []),
  (s%"kliti", [s%"kit"]),
  (s%"kloje", []),
  (s%"klupe", [s%"lup", s%"lu'e"]),
  (s%"kluza", [s%"luz"]),
  (s%"kobli", [s%"kob", s%"ko'i"]),
  (s%"kogno", []),
  (s%"kojna", [s%"koj", s%"ko'a"]),
  (s%"kokso", []),
  (s%"kolme", [s%"kol", s%"ko'e"]),
  (s%"komcu", [s%"kom"]),
  (s%"konju", [s%"kon", s%"ko'u"]),
  (s%"konve", []),
  (s%"korbi", [s%"kor", s%"koi"]),
  (s%"korcu", [s%"kro"]),
  (s%"kordu", []),
  (s%"korja", []),
  (s%"korka", [s%"kok"]),
  (s%"korle", []),
  (s%"korvo", []),
  (s%"kosmu", []),
  (s%"kosta", [s%"kos"]),
  (s%"krali", []),
  (s%"kramu", []),
  (s%"krasi", [s%"kra"]),
  (s%"krati", [s%"ka'i"]),
  (s%"krefu", [s%"ref", s%"ke'u"]),
  (s%"krici", [s%"kri"]),
  (s%"krili", []),
  (s%"krinu", [s%"rin", s%"ki'u"]),
  (s%"krixa", [s%"kix", s%"ki'a"]),
  (s%"kroke", []),
  (s%"kroxo", []),
  (s%"kruca", [s%"kuc"]),
  (s%"kruji", [s%"ruj"]),
  (s%"kruvi", [s%"ruv", s%"kru"]),
  (s%"ku'a", [s%"kuz"]),
  (s%"kubli", [s%"kub"]),
  (s%"kucli", []),
  (s%"kufra", [s%"kuf"]),
  (s%"kukru", []),
  (s%"kukte", [s%"kuk"]),
  (s%"kulnu", [s%"klu"]),
  (s%"kumfa", [s%"kum", s%"ku'a"]),
  (s%"kumte", []),
  (s%"kunra", [s%"kun"]),
  (s%"kunti", [s%"kut"]),
  (s%"kurfa", [s%"kur"]),
  (s%"kurji", [s%"kuj", s%"ku'i"]),
  (s%"kurki", []),
  (s%"kurti", []),
  (s%"kuspe", [s%"kup", s%"ku'e"]),
  (s%"kusru", [s%"kus"]),
  (s%"labno", []),
  (s%"lacni", []),
  (s%"lacpu", [s%"lap", s%"cpu"]),
  (s%"lacri", [s%"lac"])
]

/-- rafsi.py:902-1001. -/
def rafsiChunk9 : List (Str × List Str) := [
  (s%"ladlo", []),
  (s%"ladru", [s%"lad"]),
  (s%"lafti", [s%"laf"]),
  (s%"lakne", [s%"la'e"]),
  (s%"lakse", [s%"lak"]),
  (s%"laldo", []),
  (s%"lalxu", [s%"la'u"]),
  (s%"lamda", []),
  (s%"lamdu", []),
  (s%"lamji", [s%"lam", s%"la'i"]),
  (s%"lanbi", []),
  (s%"lanci", []),
  (s%"landa", []),
  (s%"langi", []),
  (s%"lanka", []),
  (s%"lanli", [s%"lal"]),
  (s%"lanme", [s%"lan"]),
  (s%"lanru", []),
  (s%"lante", []),
  (s%"lanxe", [s%"lax"]),
  (s%"lanzu", [s%"laz"]),
  (s%"larcu", [s%"lar"]),
  (s%"larki", []),
  (s%"larva", []),
  (s%"lasna", [s%"la'a"]),
  (s%"lastu", []),
  (s%"latci", []),
  (s%"latmo", [s%"la'o"]),
  (s%"latna", []),
  (s%"laxte", []),
  (s%"lazni", []),
  (s%"lebna", [s%"leb", s%"le'a"]),
  (s%"le'e", [s%"lem"]),
  (s%"lelde", []),
  (s%"lelxe", [s%"lel"]),
  (s%"lenga", []),
  (s%"lengu", []),
  (s%"lenjo", [s%"len", s%"le'o"]),
  (s%"lenku", [s%"lek"]),
  (s%"lerci", [s%"lec"]),
  (s%"lerfu", [s%"ler", s%"le'u"]),
  (s%"letci", []),
  (s%"libjo", [s%"lib"]),
  (s%"licne", []),
  (s%"lidne", [s%"li'e"]),
  (s%"lifri", [s%"lif", s%"fri"]),
  (s%"ligma", []),
  (s%"li'i", [s%"liz"]),
  (s%"lijda", [s%"jda"]),
  (s%"likse", []),
  (s%"lilvo", []),
  (s%"limfa", []),
  (s%"limna", [s%"lim"]),
  (s%"lince", []),
  (s%"lindi", [s%"lid"]),
  (s%"linga", []),
  (s%"linji", [s%"lij", s%"li'i"]),
  (s%"linme", []),
  (s%"linsi", [s%"lin"]),
  (s%"linto", [s%"li'o"]),
  (s%"lisri", [s%"lis"]),
  (s%"liste", [s%"ste"]),
  (s%"litce", [s%"lic"]),
  (s%"litki", [s%"lik"]),
  (s%"litru", [s%"li'u"]),
  (s%"livga", []),
  (s%"livla", [s%"lil"]),
  (s%"lo'e", [s%"lom"]),
  (s%"logji", [s%"loj"]),
  (s%"loglo", [s%"log", s%"glo"]),
  (s%"lojbo", [s%"lob", s%"jbo"]),
  (s%"lojgo", []),
  (s%"lokra", []),
  (s%"loldi", [s%"lol", s%"loi"]),
  (s%"lorxu", [s%"lor", s%"lo'u"]),
  (s%"losmo", [s%"los"]),
  (s%"losto", []),
  (s%"lubma", []),
  (s%"lubno", [s%"lu'o"]),
  (s%"lucpa", []),
  (s%"lujvo", [s%"luv", s%"jvo"]),
  (s%"luksi", [s%"luk"]),
  (s%"lumci", [s%"lum", s%"lu'i"]),
  (s%"lunbe", [s%"lub"]),
  (s%"lungo", []),
  (s%"lunra", [s%"lur"]),
  (s%"lunsa", [s%"lus"]),
  (s%"luska", []),
  (s%"lusto", []),
  (s%"mabla", [s%"mal"]),
  (s%"mabru", [s%"mab"]),
  (s%"macnu", [s%"cnu"]),
  (s%"majga", []),
  (s%"majgo", [s%"jgo"]),
  (s%"majvu", []),
  (s%"makcu", [s%"ma'u"]),
  (s%"makfa", [s%"maf"]),
  (s%"maksi", [s%"mak"]),
  (s%"malbu", []),
  (s%"malsi", [s%"mas"])
]

/-- rafsi.py:1002-1101. -/
def rafsiChunk10 : List (Str × List Str) := [
  (s%"maltu", []),
  (s%"malve", []),
  (s%"mamta", [s%"mam"]),
  (s%"manci", [s%"mac"]),
  (s%"manfo", []),
  (s%"mango", []),
  (s%"manku", [s%"man"]),
  (s%"manri", [s%"mar"]),
  (s%"mansa", []),
  (s%"manti", []),
  (s%"manva", []),
  (s%"mapku", [s%"map"]),
  (s%"mapni", []),
  (s%"mapra", []),
  (s%"mapti", [s%"mat"]),
  (s%"marbi", [s%"mra"]),
  (s%"marce", [s%"ma'e"]),
  (s%"marde", [s%"mad"]),
  (s%"margu", [s%"mag"]),
  (s%"marji", [s%"maj", s%"mai"]),
  (s%"marna", []),
  (s%"marxa", [s%"max"]),
  (s%"maska", []),
  (s%"masno", [s%"sno"]),
  (s%"masti", [s%"ma'i"]),
  (s%"matci", []),
  (s%"matli", []),
  (s%"matne", []),
  (s%"matra", []),
  (s%"matxe", []),
  (s%"mavji", [s%"mav"]),
  (s%"maxri", [s%"xri"]),
  (s%"mebri", [s%"meb"]),
  (s%"medzo", []),
  (s%"megdo", [s%"meg"]),
  (s%"mei", [s%"mem", s%"mei"]),
  (s%"mekca", []),
  (s%"mekso", [s%"mek", s%"me'o"]),
  (s%"melbi", [s%"mel", s%"mle"]),
  (s%"meljo", [s%"mej"]),
  (s%"melmi", []),
  (s%"menli", [s%"men"]),
  (s%"menre", []),
  (s%"mensi", [s%"mes", s%"me'i"]),
  (s%"mentu", [s%"met", s%"me'u"]),
  (s%"merko", [s%"mer"]),
  (s%"merli", [s%"mre"]),
  (s%"mespo", []),
  (s%"metfo", []),
  (s%"metro", []),
  (s%"mexno", [s%"mex"]),
  (s%"mi", [s%"mib"]),
  (s%"midju", [s%"mij"]),
  (s%"mifra", [s%"mif"]),
  (s%"mikce", [s%"mic"]),
  (s%"mikri", [s%"mik"]),
  (s%"milti", [s%"mil"]),
  (s%"milxe", [s%"mli"]),
  (s%"mimta", []),
  (s%"minde", [s%"mid", s%"mi'e"]),
  (s%"minji", [s%"mi'i"]),
  (s%"minli", []),
  (s%"minra", [s%"mir"]),
  (s%"mintu", [s%"mit", s%"mi'u"]),
  (s%"mipri", [s%"mip"]),
  (s%"mirli", []),
  (s%"misno", [s%"mis", s%"mi'o"]),
  (s%"misro", []),
  (s%"miste", []),
  (s%"mitre", [s%"tre"]),
  (s%"mixre", [s%"mix", s%"xre"]),
  (s%"mlana", [s%"mla"]),
  (s%"mlatu", [s%"lat"]),
  (s%"mleca", [s%"mec", s%"me'a"]),
  (s%"mledi", [s%"led"]),
  (s%"mluni", [s%"lun"]),
  (s%"mo'a", [s%"mob"]),
  (s%"modju", []),
  (s%"modzi", []),
  (s%"mogle", []),
  (s%"mo'i", [s%"mov"]),
  (s%"moi", [s%"mom", s%"moi"]),
  (s%"mokca", [s%"moc"]),
  (s%"moklu", [s%"mol", s%"mo'u"]),
  (s%"molki", [s%"mlo"]),
  (s%"molro", [s%"mo'o"]),
  (s%"mondo", []),
  (s%"morji", [s%"moj", s%"mo'i"]),
  (s%"morko", [s%"mor"]),
  (s%"mormo", []),
  (s%"morna", [s%"mon", s%"mo'a"]),
  (s%"morsi", [s%"mro"]),
  (s%"mosra", [s%"mos"]),
  (s%"moxna", []),
  (s%"mraji", []),
  (s%"mrilu", [s%"mri"]),
  (s%"mruli", [s%"mru"]),
  (s%"mu", [s%"mum"]),
  (s%"mucti", [s%"mut"]),
  (s%"mudri", [s%"mud"])
]

/-- rafsi.py:1102-1201. -/
def rafsiChunk11 : List (Str × List Str) := [
  (s%"mu'e", [s%"muf"]),
  (s%"mugle", []),
  (s%"mukti", [s%"muk", s%"mu'i"]),
  (s%"mulno", [s%"mul", s%"mu'o"]),
  (s%"munje", [s%"muj", s%"mu'e"]),
  (s%"munpi", []),
  (s%"mupli", [s%"mup"]),
  (s%"murse", []),
  (s%"murta", [s%"mur", s%"mu'a"]),
  (s%"muslo", [s%"mus"]),
  (s%"mutce", [s%"tce"]),
  (s%"muvdu", [s%"muv", s%"mu'u"]),
  (s%"muxne", [s%"mux"]),
  (s%"muzga", [s%"muz"]),
  (s%"na", [s%"nar"]),
  (s%"nabmi", [s%"nam"]),
  (s%"na'e", [s%"nal"]),
  (s%"nakni", [s%"nak"]),
  (s%"nalci", [s%"na'i"]),
  (s%"nalfi", []),
  (s%"nalfo", []),
  (s%"nalti", []),
  (s%"namcu", [s%"nac", s%"na'u"]),
  (s%"namra", []),
  (s%"nanba", [s%"nab"]),
  (s%"nanca", [s%"na'a"]),
  (s%"nandu", [s%"nad"]),
  (s%"nanla", []),
  (s%"nanmu", [s%"nau"]),
  (s%"nanvi", [s%"nav"]),
  (s%"narge", [s%"nag"]),
  (s%"narju", [s%"naj"]),
  (s%"natfe", [s%"naf", s%"na'e"]),
  (s%"natlo", []),
  (s%"natmi", [s%"nat", s%"nai"]),
  (s%"natsi", []),
  (s%"navni", []),
  (s%"naxle", [s%"nax", s%"xle"]),
  (s%"nazbi", [s%"naz", s%"zbi"]),
  (s%"nazmo", []),
  (s%"nedlo", []),
  (s%"nejni", [s%"nen"]),
  (s%"nelci", [s%"nel", s%"nei"]),
  (s%"nenmu", []),
  (s%"nenri", [s%"ner", s%"ne'i"]),
  (s%"nerde", []),
  (s%"ni", [s%"nil"]),
  (s%"nibli", [s%"nib", s%"ni'i"]),
  (s%"nicfa", [s%"nif"]),
  (s%"niclu", []),
  (s%"nicte", [s%"cte"]),
  (s%"nikle", [s%"nik"]),
  (s%"nilce", [s%"ni'e"]),
  (s%"nimre", []),
  (s%"ninja", []),
  (s%"ninmu", [s%"nim", s%"ni'u"]),
  (s%"nirna", [s%"nir"]),
  (s%"nitcu", [s%"tcu"]),
  (s%"nivji", [s%"niv"]),
  (s%"nixli", [s%"nix", s%"xli"]),
  (s%"no", [s%"non"]),
  (s%"nobli", [s%"nol", s%"no'i"]),
  (s%"no'e", [s%"nor", s%"no'e"]),
  (s%"nonka", [s%"nok"]),
  (s%"nonmu", []),
  (s%"nordo", []),
  (s%"norgo", []),
  (s%"notci", [s%"not", s%"noi"]),
  (s%"nu", [s%"nun"]),
  (s%"nudle", []),
  (s%"nukni", [s%"nuk"]),
  (s%"nuktu", []),
  (s%"nulpa", []),
  (s%"numje", []),
  (s%"nunmu", [s%"nu'u"]),
  (s%"nu'o", [s%"nu'o"]),
  (s%"nupre", [s%"nup", s%"nu'e"]),
  (s%"nurma", [s%"num"]),
  (s%"nusna", []),
  (s%"nutka", []),
  (s%"nutko", []),
  (s%"nutli", [s%"nul", s%"nu'i"]),
  (s%"nuzba", [s%"nuz"]),
  (s%"nuzlo", []),
  (s%"pa", [s%"pav"]),
  (s%"pacna", [s%"pa'a"]),
  (s%"pagbu", [s%"pag", s%"pau"]),
  (s%"pagre", [s%"gre"]),
  (s%"pagzu", []),
  (s%"pajni", [s%"pai"]),
  (s%"palci", [s%"pac"]),
  (s%"palku", [s%"pak"]),
  (s%"palma", []),
  (s%"palne", []),
  (s%"palpi", []),
  (s%"palta", []),
  (s%"pambe", []),
  (s%"pamga", []),
  (s%"panci", [s%"pan"]),
  (s%"pandi", [s%"pad"])
]

/-- rafsi.py:1202-1301. -/
def rafsiChunk12 : List (Str × List Str) := [
  (s%"panje", []),
  (s%"panka", []),
  (s%"panlo", [s%"pa'o"]),
  (s%"panpi", [s%"pap"]),
  (s%"panra", []),
  (s%"pante", [s%"pat"]),
  (s%"panzi", [s%"paz"]),
  (s%"papri", []),
  (s%"parbi", [s%"pab"]),
  (s%"pardu", []),
  (s%"parji", []),
  (s%"paska", []),
  (s%"pastu", [s%"pas"]),
  (s%"patfu", [s%"paf", s%"pa'u"]),
  (s%"patlu", []),
  (s%"patxu", [s%"pax"]),
  (s%"paxra", []),
  (s%"paznu", []),
  (s%"pe'a", [s%"pev"]),
  (s%"pegva", [s%"peg"]),
  (s%"pelji", [s%"ple"]),
  (s%"pelxu", [s%"pel"]),
  (s%"pemci", [s%"pem"]),
  (s%"penbi", [s%"peb"]),
  (s%"pencu", [s%"pec", s%"pe'u"]),
  (s%"pendo", [s%"ped", s%"pe'o"]),
  (s%"penka", []),
  (s%"penki", []),
  (s%"penmi", [s%"pen", s%"pe'i"]),
  (s%"pensi", [s%"pes", s%"pei"]),
  (s%"pentu", []),
  (s%"pepsi", []),
  (s%"perli", [s%"per"]),
  (s%"pesxu", [s%"pex"]),
  (s%"petso", [s%"pet"]),
  (s%"pevna", []),
  (s%"pezli", [s%"pez"]),
  (s%"pi", [s%"piz"]),
  (s%"picti", [s%"pic"]),
  (s%"pijne", []),
  (s%"pikci", []),
  (s%"pikpi", []),
  (s%"pikta", []),
  (s%"pilda", []),
  (s%"pilji", [s%"pi'i"]),
  (s%"pilka", [s%"pil", s%"pi'a"]),
  (s%"pilno", [s%"pli"]),
  (s%"pimlu", [s%"pim", s%"pi'u"]),
  (s%"pinca", []),
  (s%"pindi", [s%"pid"]),
  (s%"pinfu", [s%"pif"]),
  (s%"Pingo", []),
  (s%"pinji", []),
  (s%"pinka", [s%"pik"]),
  (s%"pinsi", [s%"pis"]),
  (s%"pinta", [s%"pin"]),
  (s%"pinxe", [s%"pix"]),
  (s%"pipno", [s%"pi'o"]),
  (s%"pirxo", []),
  (s%"pitsa", []),
  (s%"pi'u", [s%"piv"]),
  (s%"pixra", [s%"pir", s%"xra"]),
  (s%"plana", []),
  (s%"platu", [s%"pla"]),
  (s%"pleji", [s%"lej", s%"le'i"]),
  (s%"plibu", [s%"pib"]),
  (s%"plini", []),
  (s%"plipe", [s%"pip", s%"pi'e"]),
  (s%"plise", []),
  (s%"plita", [s%"pit"]),
  (s%"plixa", [s%"lix"]),
  (s%"pluja", [s%"luj"]),
  (s%"pluka", [s%"puk", s%"pu'a"]),
  (s%"pluna", []),
  (s%"pluta", [s%"lut", s%"lu'a"]),
  (s%"pocli", []),
  (s%"polje", [s%"plo"]),
  (s%"polno", [s%"pol"]),
  (s%"pombo", [s%"pom"]),
  (s%"ponjo", [s%"pon", s%"po'o"]),
  (s%"ponse", [s%"pos", s%"po'e"]),
  (s%"poplu", []),
  (s%"porno", []),
  (s%"porpi", [s%"pop", s%"po'i"]),
  (s%"porsi", [s%"por", s%"poi"]),
  (s%"porto", [s%"pot"]),
  (s%"posko", [s%"pok"]),
  (s%"praci", []),
  (s%"prali", [s%"pal"]),
  (s%"prami", [s%"pam", s%"pa'i"]),
  (s%"prane", [s%"pa'e"]),
  (s%"predi", []),
  (s%"preja", [s%"pej", s%"pe'a"]),
  (s%"premi", []),
  (s%"prenu", [s%"pre"]),
  (s%"preri", []),
  (s%"preti", [s%"ret", s%"rei"]),
  (s%"prije", [s%"pij"]),
  (s%"prina", [s%"pri"]),
  (s%"pritu", [])
]

/-- rafsi.py:1302-1401. -/
def rafsiChunk13 : List (Str × List Str) := [
  (s%"proga", [s%"pog"]),
  (s%"proji", []),
  (s%"prosa", [s%"ros", s%"ro'a"]),
  (s%"pruce", [s%"ruc", s%"ru'e"]),
  (s%"pruni", [s%"pun"]),
  (s%"pruri", []),
  (s%"pruxi", [s%"rux", s%"ru'i"]),
  (s%"pu'i", [s%"pus"]),
  (s%"pulce", [s%"puc", s%"pu'e"]),
  (s%"pulji", []),
  (s%"pulni", []),
  (s%"punji", [s%"puj", s%"pu'i"]),
  (s%"punli", [s%"pul"]),
  (s%"pupsu", [s%"pup"]),
  (s%"purci", [s%"pur", s%"pru"]),
  (s%"purdi", [s%"pud"]),
  (s%"purmo", [s%"pum", s%"pu'o"]),
  (s%"purni", []),
  (s%"pu'u", [s%"puv"]),
  (s%"puvza", []),
  (s%"racli", []),
  (s%"ractu", []),
  (s%"radno", [s%"ra'o"]),
  (s%"rafsi", [s%"raf"]),
  (s%"ragbi", []),
  (s%"ragve", [s%"rav"]),
  (s%"rakle", []),
  (s%"rakso", []),
  (s%"raktu", [s%"ra'u"]),
  (s%"ralci", [s%"rac"]),
  (s%"ralju", [s%"ral"]),
  (s%"ralte", [s%"ra'e"]),
  (s%"rance", []),
  (s%"randa", [s%"rad"]),
  (s%"rango", [s%"rag"]),
  (s%"ranji", [s%"ra'i"]),
  (s%"ranlu", []),
  (s%"ranmi", [s%"ram"]),
  (s%"ransu", []),
  (s%"ranti", [s%"ran"]),
  (s%"ranxi", [s%"rax"]),
  (s%"rapli", [s%"rap"]),
  (s%"rarna", [s%"rar"]),
  (s%"ratcu", []),
  (s%"ratma", []),
  (s%"ratni", [s%"rat"]),
  (s%"re", [s%"rel"]),
  (s%"rebla", [s%"reb"]),
  (s%"rectu", [s%"rec", s%"re'u"]),
  (s%"reksa", []),
  (s%"rekto", []),
  (s%"remna", [s%"rem", s%"re'a"]),
  (s%"renro", [s%"rer", s%"re'o"]),
  (s%"renvi", [s%"rev", s%"re'i"]),
  (s%"respa", [s%"res"]),
  (s%"rexsa", [s%"rex"]),
  (s%"ribga", []),
  (s%"ricfu", [s%"rif", s%"cfu"]),
  (s%"rigni", [s%"rig"]),
  (s%"rijno", [s%"rij"]),
  (s%"rikro", []),
  (s%"rilti", [s%"ril"]),
  (s%"rimni", [s%"rim"]),
  (s%"rinci", []),
  (s%"rindo", []),
  (s%"rinju", [s%"ri'u"]),
  (s%"rinka", [s%"rik", s%"ri'a"]),
  (s%"rinsa", []),
  (s%"ripto", []),
  (s%"rirci", []),
  (s%"rirli", []),
  (s%"rirni", [s%"rir"]),
  (s%"rirxe", [s%"ri'e"]),
  (s%"rismi", [s%"ris"]),
  (s%"risna", []),
  (s%"ritli", [s%"ri'i"]),
  (s%"rivbi", [s%"riv"]),
  (s%"ro", [s%"rol"]),
  (s%"roi", [s%"rom", s%"roi"]),
  (s%"rokci", [s%"rok", s%"ro'i"]),
  (s%"romge", [s%"rog"]),
  (s%"romlo", []),
  (s%"ronci", [s%"roc"]),
  (s%"ronro", []),
  (s%"ronsa", []),
  (s%"ronte", []),
  (s%"ronti", []),
  (s%"ropno", [s%"ron", s%"ro'o"]),
  (s%"rorci", [s%"ror"]),
  (s%"rotsu", [s%"rot", s%"ro'u", s%"tsu"]),
  (s%"rozgu", [s%"roz", s%"zgu"]),
  (s%"ruble", [s%"rub", s%"ble"]),
  (s%"rucni", []),
  (s%"rufsu", [s%"ruf"]),
  (s%"runme", [s%"rum"]),
  (s%"runta", []),
  (s%"rupnu", [s%"rup", s%"ru'u"]),
  (s%"rusko", [s%"ruk", s%"ru'o"]),
  (s%"rutni", [s%"run"]),
  (s%"sabji", [s%"sab"])
]

/-- rafsi.py:1402-1501. -/
def rafsiChunk14 : List (Str × List Str) := [
  (s%"sabnu", []),
  (s%"sacki", []),
  (s%"saclu", []),
  (s%"sacni", []),
  (s%"sadjo", [s%"djo"]),
  (s%"sakci", [s%"sak"]),
  (s%"sakli", [s%"sal"]),
  (s%"sakta", [s%"sat"]),
  (s%"salci", [s%"sla"]),
  (s%"salmo", []),
  (s%"salni", []),
  (s%"salpo", [s%"sa'o"]),
  (s%"salri", []),
  (s%"salta", []),
  (s%"samcu", []),
  (s%"samlu", []),
  (s%"sampu", [s%"sap"]),
  (s%"sanbu", []),
  (s%"sance", [s%"sna"]),
  (s%"sanga", [s%"sag", s%"sa'a"]),
  (s%"sanji", [s%"saj"]),
  (s%"sanli", [s%"sa'i"]),
  (s%"sanmi", [s%"sai"]),
  (s%"sanra", []),
  (s%"sanso", []),
  (s%"santa", []),
  (s%"sarcu", [s%"sa'u"]),
  (s%"sarji", [s%"sra"]),
  (s%"sarlu", []),
  (s%"sarni", []),
  (s%"sarxe", [s%"sax"]),
  (s%"saske", [s%"ske"]),
  (s%"satci", []),
  (s%"satre", [s%"sa'e"]),
  (s%"savru", [s%"sav", s%"vru"]),
  (s%"sazri", [s%"saz"]),
  (s%"se", [s%"sel"]),
  (s%"sefsi", []),
  (s%"sefta", [s%"sfe"]),
  (s%"sekre", []),
  (s%"selci", [s%"sle"]),
  (s%"selfu", [s%"sef", s%"se'u"]),
  (s%"semto", [s%"sme"]),
  (s%"senci", [s%"sec"]),
  (s%"sengi", []),
  (s%"senpi", [s%"sen"]),
  (s%"senta", [s%"set"]),
  (s%"senva", [s%"sev", s%"sne"]),
  (s%"sepli", [s%"sep", s%"sei"]),
  (s%"sepre", []),
  (s%"serti", [s%"ser"]),
  (s%"sesre", []),
  (s%"setca", [s%"se'a"]),
  (s%"sevda", []),
  (s%"sevzi", [s%"sez", s%"se'i"]),
  (s%"sezni", []),
  (s%"sfani", []),
  (s%"sfasa", [s%"sfa"]),
  (s%"sfeno", [s%"se'o"]),
  (s%"sfero", []),
  (s%"sfite", [s%"sfi"]),
  (s%"sfofa", [s%"sfo"]),
  (s%"sfopu", [s%"fop", s%"fo'u"]),
  (s%"sfubu", [s%"sub", s%"su'u"]),
  (s%"sibli", []),
  (s%"siclu", [s%"sil"]),
  (s%"sicni", [s%"si'i"]),
  (s%"sicpi", []),
  (s%"sidbo", [s%"sib", s%"si'o"]),
  (s%"sidju", [s%"dju"]),
  (s%"sigda", []),
  (s%"sigja", [s%"sig"]),
  (s%"sigma", []),
  (s%"sikta", []),
  (s%"silja", []),
  (s%"silka", [s%"sik"]),
  (s%"silna", []),
  (s%"silru", []),
  (s%"simlu", [s%"mlu"]),
  (s%"simsa", [s%"smi"]),
  (s%"simxu", [s%"sim", s%"si'u"]),
  (s%"since", []),
  (s%"sinma", [s%"si'a"]),
  (s%"sinso", []),
  (s%"sinxa", [s%"sni"]),
  (s%"si'o", [s%"siz"]),
  (s%"sipna", [s%"sip"]),
  (s%"sirji", [s%"sir"]),
  (s%"sirmu", []),
  (s%"sirxo", [s%"six"]),
  (s%"sisku", [s%"sis"]),
  (s%"sisti", [s%"sti"]),
  (s%"sitla", []),
  (s%"sitna", [s%"sit"]),
  (s%"sivni", [s%"siv"]),
  (s%"sizgo", []),
  (s%"skaci", []),
  (s%"skami", [s%"sam"]),
  (s%"skano", []),
  (s%"skapi", [s%"kap"])
]

/-- rafsi.py:1502-1601. -/
def rafsiChunk15 : List (Str × List Str) := [
  (s%"skari", [s%"ska"]),
  (s%"skibo", []),
  (s%"skicu", [s%"ski"]),
  (s%"skifa", []),
  (s%"skiji", [s%"sij"]),
  (s%"skina", [s%"kin"]),
  (s%"skori", [s%"sko"]),
  (s%"skoto", [s%"kot", s%"ko'o"]),
  (s%"skuba", []),
  (s%"skudi", []),
  (s%"skuna", []),
  (s%"skuro", [s%"ku'o"]),
  (s%"slabu", [s%"sau"]),
  (s%"slaka", []),
  (s%"slami", []),
  (s%"slanu", []),
  (s%"slari", [s%"sar"]),
  (s%"slasi", [s%"las"]),
  (s%"sligu", [s%"lig"]),
  (s%"slilu", [s%"sli"]),
  (s%"sliri", []),
  (s%"slovo", [s%"lov", s%"lo'o"]),
  (s%"sluji", [s%"slu"]),
  (s%"sluni", []),
  (s%"smacu", []),
  (s%"smadi", []),
  (s%"smaji", [s%"sma"]),
  (s%"smaka", []),
  (s%"smani", []),
  (s%"smela", []),
  (s%"smoka", [s%"smo"]),
  (s%"smuci", [s%"muc"]),
  (s%"smuni", [s%"mun", s%"smu"]),
  (s%"smusu", []),
  (s%"snada", [s%"sad"]),
  (s%"snafu", []),
  (s%"snanu", [s%"nan"]),
  (s%"snavi", []),
  (s%"snejo", []),
  (s%"snidu", [s%"nid"]),
  (s%"sniju", []),
  (s%"snime", [s%"si'e"]),
  (s%"snipa", [s%"nip"]),
  (s%"snuji", [s%"nuj"]),
  (s%"snura", [s%"nur", s%"nu'a"]),
  (s%"snuti", [s%"nut"]),
  (s%"so", [s%"soz"]),
  (s%"so'a", [s%"soj"]),
  (s%"sobde", [s%"sob", s%"so'e"]),
  (s%"socni", []),
  (s%"sodna", []),
  (s%"sodva", [s%"sod"]),
  (s%"so'e", [s%"sop"]),
  (s%"softo", [s%"sof"]),
  (s%"so'i", [s%"sor", s%"so'i"]),
  (s%"solji", [s%"slo"]),
  (s%"solri", [s%"sol"]),
  (s%"sombo", [s%"som", s%"so'o"]),
  (s%"sonci", [s%"son", s%"soi"]),
  (s%"sondu", []),
  (s%"sonli", []),
  (s%"so'o", [s%"sos"]),
  (s%"sorcu", [s%"soc", s%"sro"]),
  (s%"sorgu", [s%"sog"]),
  (s%"sorni", []),
  (s%"sorta", []),
  (s%"so'u", [s%"sot"]),
  (s%"sovda", [s%"sov", s%"so'a"]),
  (s%"spaji", [s%"paj"]),
  (s%"spali", []),
  (s%"spano", [s%"san"]),
  (s%"spati", [s%"spa"]),
  (s%"speci", []),
  (s%"speni", [s%"spe"]),
  (s%"spero", []),
  (s%"spisa", [s%"spi"]),
  (s%"spita", []),
  (s%"spofu", [s%"pof", s%"po'u"]),
  (s%"spoja", [s%"poj", s%"po'a"]),
  (s%"spuda", [s%"spu"]),
  (s%"spupi", []),
  (s%"sputu", [s%"put", s%"pu'u"]),
  (s%"sraji", [s%"raj"]),
  (s%"sraku", [s%"rak"]),
  (s%"sralo", []),
  (s%"srana", [s%"ra'a"]),
  (s%"srasu", [s%"sas"]),
  (s%"srate", []),
  (s%"srera", [s%"sre"]),
  (s%"srito", []),
  (s%"sruma", [s%"ru'a"]),
  (s%"sruri", [s%"rur", s%"sru"]),
  (s%"stace", [s%"sac"]),
  (s%"stagi", []),
  (s%"staku", [s%"tak"]),
  (s%"stali", [s%"sta"]),
  (s%"stani", []),
  (s%"stapa", [s%"tap"]),
  (s%"stasu", []),
  (s%"stati", [])
]

/-- rafsi.py:1602-1701. -/
def rafsiChunk16 : List (Str × List Str) := [
  (s%"steba", [s%"seb"]),
  (s%"steci", [s%"tec", s%"te'i"]),
  (s%"stedu", [s%"sed"]),
  (s%"stela", [s%"tel"]),
  (s%"stero", [s%"te'o"]),
  (s%"stici", [s%"sic"]),
  (s%"stidi", [s%"sid", s%"ti'i"]),
  (s%"stika", [s%"tik"]),
  (s%"stima", []),
  (s%"stizu", [s%"tiz"]),
  (s%"stodi", [s%"sto"]),
  (s%"stori", []),
  (s%"stuna", [s%"sun"]),
  (s%"stura", [s%"tur", s%"su'a"]),
  (s%"stuzi", [s%"tuz", s%"stu"]),
  (s%"sucta", [s%"suc"]),
  (s%"sudga", [s%"sud"]),
  (s%"su'e", [s%"sup", s%"su'e"]),
  (s%"sufti", [s%"sfu"]),
  (s%"suksa", [s%"suk"]),
  (s%"sumji", [s%"suj"]),
  (s%"sumla", []),
  (s%"sumne", []),
  (s%"sumro", []),
  (s%"sumti", [s%"sum", s%"su'i"]),
  (s%"sunga", [s%"sug"]),
  (s%"sunla", [s%"sul"]),
  (s%"su'o", [s%"suz", s%"su'o"]),
  (s%"supso", [s%"sus"]),
  (s%"surla", [s%"sur"]),
  (s%"sutra", [s%"sut"]),
  (s%"su'u", [s%"suv"]),
  (s%"ta", [s%"taz"]),
  (s%"tabno", [s%"tab"]),
  (s%"tabra", []),
  (s%"tadji", []),
  (s%"tadni", [s%"tad"]),
  (s%"tagji", [s%"tag"]),
  (s%"takni", []),
  (s%"taksi", []),
  (s%"talko", []),
  (s%"talno", []),
  (s%"talsa", [s%"tal"]),
  (s%"tamca", []),
  (s%"tamji", [s%"taj"]),
  (s%"tamle", []),
  (s%"tamne", []),
  (s%"tanbo", [s%"ta'o"]),
  (s%"tance", [s%"tac"]),
  (s%"tanjo", []),
  (s%"tanko", []),
  (s%"tanru", [s%"tau"]),
  (s%"tansi", [s%"tas"]),
  (s%"tanxe", [s%"tax", s%"ta'e"]),
  (s%"tapla", []),
  (s%"tarbi", []),
  (s%"tarci", [s%"tar"]),
  (s%"tarla", []),
  (s%"tarmi", [s%"tam", s%"tai"]),
  (s%"tarti", [s%"tra"]),
  (s%"taske", []),
  (s%"tasmi", []),
  (s%"tasta", []),
  (s%"tatpi", [s%"ta'i"]),
  (s%"tatru", [s%"tat"]),
  (s%"tavla", [s%"tav", s%"ta'a"]),
  (s%"taxfu", [s%"taf", s%"ta'u"]),
  (s%"tcaci", [s%"cac"]),
  (s%"tcadu", [s%"tca"]),
  (s%"tcaka", []),
  (s%"tcame", []),
  (s%"tcana", []),
  (s%"tcati", []),
  (s%"tcaxe", []),
  (s%"tcema", []),
  (s%"tcemi", []),
  (s%"tcena", [s%"ten"]),
  (s%"tcesa", []),
  (s%"tcese", []),
  (s%"tceta", []),
  (s%"tcica", [s%"tic"]),
  (s%"tcidu", [s%"tid"]),
  (s%"tcika", []),
  (s%"tcila", [s%"til"]),
  (s%"tcima", [s%"tim", s%"ti'a"]),
  (s%"tcini", []),
  (s%"tcipi", []),
  (s%"tcita", []),
  (s%"tcivi", []),
  (s%"tcobi", []),
  (s%"tcone", []),
  (s%"tcuti", []),
  (s%"te", [s%"ter"]),
  (s%"tekla", []),
  (s%"temci", [s%"tem", s%"tei"]),
  (s%"temse", []),
  (s%"tende", [s%"te'e"]),
  (s%"tendo", []),
  (s%"tenfa", [s%"tef"]),
  (s%"tengu", [s%"teg", s%"te'u"])
]

/-- rafsi.py:1702-1801. -/
def rafsiChunk17 : List (Str × List Str) := [
  (s%"terdi", [s%"ted"]),
  (s%"terki", []),
  (s%"terpa", [s%"tep", s%"te'a"]),
  (s%"terto", [s%"tet"]),
  (s%"tezda", []),
  (s%"ti", [s%"tif"]),
  (s%"tifri", []),
  (s%"tigni", [s%"tig"]),
  (s%"tigra", []),
  (s%"tikpa", [s%"tip"]),
  (s%"tilju", [s%"tij"]),
  (s%"timno", []),
  (s%"tinbe", [s%"tib"]),
  (s%"tinci", []),
  (s%"tinri", []),
  (s%"tinsa", []),
  (s%"tinto", []),
  (s%"tipre", []),
  (s%"tirna", [s%"tin"]),
  (s%"tirse", [s%"tir"]),
  (s%"tirxu", []),
  (s%"tisna", [s%"tis"]),
  (s%"titla", [s%"tit"]),
  (s%"tivni", [s%"tiv"]),
  (s%"tixnu", [s%"tix", s%"ti'u"]),
  (s%"tizva", []),
  (s%"to'e", [s%"tol", s%"to'e"]),
  (s%"toknu", [s%"tok"]),
  (s%"tokpo", [s%"top"]),
  (s%"toldi", [s%"tod"]),
  (s%"tolfa", []),
  (s%"tonga", [s%"tog", s%"to'a"]),
  (s%"tonsi", [s%"tos"]),
  (s%"tonzo", [s%"to'o"]),
  (s%"tordu", [s%"tor", s%"to'u"]),
  (s%"torka", []),
  (s%"torni", [s%"ton", s%"to'i"]),
  (s%"torso", []),
  (s%"torta", []),
  (s%"tovla", []),
  (s%"traji", [s%"rai"]),
  (s%"trano", []),
  (s%"trati", []),
  (s%"trene", [s%"ren", s%"re'e"]),
  (s%"tricu", [s%"ric"]),
  (s%"triga", []),
  (s%"trina", [s%"tri"]),
  (s%"trixe", [s%"rix", s%"ti'e"]),
  (s%"troci", [s%"toc", s%"toi"]),
  (s%"tsaba", []),
  (s%"tsako", [s%"tso"]),
  (s%"tsali", [s%"tsa"]),
  (s%"tsani", [s%"tan"]),
  (s%"tsapi", []),
  (s%"tsida", []),
  (s%"tsiju", [s%"tsi"]),
  (s%"tsina", [s%"sin"]),
  (s%"tsuku", []),
  (s%"tsuli", []),
  (s%"tu", [s%"tuf"]),
  (s%"tubnu", [s%"tu'u"]),
  (s%"tubra", []),
  (s%"tugni", [s%"tug", s%"tu'i"]),
  (s%"tujli", [s%"tuj"]),
  (s%"tulnu", []),
  (s%"tumla", [s%"tum", s%"tu'a"]),
  (s%"tunba", [s%"tub"]),
  (s%"tunka", [s%"tuk"]),
  (s%"tunlo", [s%"tul", s%"tu'o"]),
  (s%"tunta", [s%"tun"]),
  (s%"tuple", [s%"tup", s%"tu'e"]),
  (s%"turko", []),
  (s%"turni", [s%"tru"]),
  (s%"tutci", [s%"tci"]),
  (s%"tutle", []),
  (s%"tutra", [s%"tut"]),
  (s%"va", [s%"vaz"]),
  (s%"vacri", [s%"var"]),
  (s%"vajni", [s%"vaj", s%"vai"]),
  (s%"valfa", [s%"vaf"]),
  (s%"valsi", [s%"val", s%"vla"]),
  (s%"vamgu", []),
  (s%"vamji", [s%"vam", s%"va'i"]),
  (s%"vamtu", [s%"vat"]),
  (s%"vanbi", [s%"vab"]),
  (s%"vanci", [s%"vac"]),
  (s%"vanju", [s%"van"]),
  (s%"vasru", [s%"vas", s%"vau"]),
  (s%"vasxu", [s%"vax", s%"va'u"]),
  (s%"ve", [s%"vel"]),
  (s%"vecnu", [s%"ven", s%"ve'u"]),
  (s%"vedli", [s%"ve'i"]),
  (s%"ve'e", [s%"ve'e"]),
  (s%"venfu", [s%"vef"]),
  (s%"vensa", [s%"ves"]),
  (s%"vente", []),
  (s%"vepre", []),
  (s%"verba", [s%"ver", s%"ve'a"]),
  (s%"verjo", []),
  (s%"vetno", [])
]

/-- rafsi.py:1802-1901. -/
def rafsiChunk18 : List (Str × List Str) := [
  (s%"vi", [s%"viz"]),
  (s%"vibna", [s%"vib"]),
  (s%"vidni", []),
  (s%"vidru", [s%"vir"]),
  (s%"vidvi", []),
  (s%"vifne", [s%"vif"]),
  (s%"vikmi", [s%"vim", s%"vi'i"]),
  (s%"viknu", [s%"vik"]),
  (s%"vilco", []),
  (s%"vimcu", [s%"vic", s%"vi'u"]),
  (s%"vindu", [s%"vid"]),
  (s%"vinji", [s%"vij"]),
  (s%"vinpa", []),
  (s%"vinta", []),
  (s%"vipsi", [s%"vip"]),
  (s%"virme", []),
  (s%"virnu", [s%"vri"]),
  (s%"viska", [s%"vis", s%"vi'a"]),
  (s%"vitci", [s%"vit"]),
  (s%"vitke", [s%"vi'e"]),
  (s%"vitno", [s%"vi'o"]),
  (s%"vlagi", [s%"lag"]),
  (s%"vlile", [s%"vil"]),
  (s%"vlina", []),
  (s%"vlipa", [s%"vli"]),
  (s%"vo", [s%"von"]),
  (s%"vofli", [s%"vol", s%"voi"]),
  (s%"voksa", [s%"vok", s%"vo'a"]),
  (s%"volve", []),
  (s%"vorme", [s%"vor", s%"vro"]),
  (s%"vraga", [s%"vra"]),
  (s%"vreji", [s%"rej", s%"vei"]),
  (s%"vreta", [s%"vre"]),
  (s%"vrici", []),
  (s%"vrude", [s%"vud", s%"vu'e"]),
  (s%"vrusi", [s%"vus", s%"vu'i"]),
  (s%"vu", [s%"vuz"]),
  (s%"vubla", [s%"vul"]),
  (s%"vujnu", [s%"vuj", s%"vu'u"]),
  (s%"vukna", []),
  (s%"vukro", [s%"vur", s%"vu'o"]),
  (s%"xa", [s%"xav"]),
  (s%"xabju", [s%"xa'u"]),
  (s%"xadba", [s%"xab"]),
  (s%"xadji", []),
  (s%"xadni", [s%"xad"]),
  (s%"xagji", []),
  (s%"xagri", []),
  (s%"xajmi", [s%"xam"]),
  (s%"xaksu", [s%"xak"]),
  (s%"xakto", []),
  (s%"xalbo", []),
  (s%"xalda", []),
  (s%"xalka", [s%"xal"]),
  (s%"xalni", []),
  (s%"xamgu", [s%"xag", s%"xau"]),
  (s%"xampo", [s%"xap", s%"xa'o"]),
  (s%"xamsi", [s%"xas"]),
  (s%"xance", [s%"xan", s%"xa'e"]),
  (s%"xango", []),
  (s%"xanka", []),
  (s%"xanmi", []),
  (s%"xanri", [s%"xar"]),
  (s%"xansa", []),
  (s%"xanto", []),
  (s%"xarci", [s%"xac", s%"xa'i"]),
  (s%"xarju", [s%"xaj"]),
  (s%"xarmi", []),
  (s%"xarnu", []),
  (s%"xasli", []),
  (s%"xasne", []),
  (s%"xatra", [s%"xa'a"]),
  (s%"xatsi", [s%"xat"]),
  (s%"xavli", []),
  (s%"xaxre", []),
  (s%"xazdo", [s%"xaz", s%"zdo"]),
  (s%"xe", [s%"xel"]),
  (s%"xebni", [s%"xen", s%"xei"]),
  (s%"xebro", [s%"xeb", s%"bro"]),
  (s%"xecto", [s%"xet", s%"cto"]),
  (s%"xedja", [s%"xej", s%"xe'a"]),
  (s%"xekce", [s%"xec", s%"xe'e"]),
  (s%"xekri", [s%"xek", s%"xe'i"]),
  (s%"xelso", [s%"xes"]),
  (s%"xendo", [s%"xed", s%"xe'o"]),
  (s%"xenmu", []),
  (s%"xenru", [s%"xer", s%"xe'u"]),
  (s%"xerno", []),
  (s%"xexso", [s%"xex"]),
  (s%"xexto", []),
  (s%"xigzo", [s%"xig"]),
  (s%"xijra", []),
  (s%"xilva", [s%"xiv"]),
  (s%"ximta", []),
  (s%"xindo", [s%"xin"]),
  (s%"xinmo", [s%"xim"]),
  (s%"xinro", []),
  (s%"xinsi", []),
  (s%"xirma", [s%"xir", s%"xi'a"]),
  (s%"xislu", [s%"xil", s%"xi'u"])
]

/-- rafsi.py:1902-2001. -/
def rafsiChunk19 : List (Str × List Str) := [
  (s%"xispo", [s%"xip"]),
  (s%"xixli", []),
  (s%"xixnu", []),
  (s%"xlali", [s%"xla"]),
  (s%"xlobi", []),
  (s%"xlura", [s%"xlu"]),
  (s%"xoltu", []),
  (s%"xonba", []),
  (s%"xorbo", []),
  (s%"xorlo", []),
  (s%"xotli", [s%"xol", s%"xoi"]),
  (s%"xrabo", [s%"rab"]),
  (s%"xrani", [s%"xai"]),
  (s%"xrata", []),
  (s%"xriso", [s%"xis", s%"xi'o"]),
  (s%"xroma", []),
  (s%"xrotu", [s%"xro"]),
  (s%"xruba", [s%"xub"]),
  (s%"xruki", [s%"xuk"]),
  (s%"xrula", [s%"rul"]),
  (s%"xruti", [s%"xru"]),
  (s%"xudvu", [s%"xu'u"]),
  (s%"xugri", []),
  (s%"xukmi", [s%"xum", s%"xu'i"]),
  (s%"xulta", [s%"xut"]),
  (s%"xumbe", []),
  (s%"xunre", [s%"xun", s%"xu'e"]),
  (s%"xurdo", [s%"xur", s%"xu'o"]),
  (s%"xusra", [s%"xus", s%"xu'a"]),
  (s%"xutla", [s%"xul"]),
  (s%"zabna", [s%"zan", s%"za'a"]),
  (s%"za'i", [s%"zaz"]),
  (s%"zajba", [s%"zaj"]),
  (s%"zalvi", [s%"zal"]),
  (s%"zandi", [s%"zad"]),
  (s%"zanru", [s%"zar", s%"zau"]),
  (s%"zanxi", []),
  (s%"za'o", [s%"za'o"]),
  (s%"zarci", [s%"zac", s%"zai"]),
  (s%"zargu", [s%"zag", s%"za'u"]),
  (s%"zasni", [s%"zas"]),
  (s%"zasti", [s%"zat", s%"za'i"]),
  (s%"zbabu", [s%"bab"]),
  (s%"zbani", []),
  (s%"zbasu", [s%"zba"]),
  (s%"zbepi", [s%"zbe"]),
  (s%"zdani", [s%"zda"]),
  (s%"zdile", [s%"zdi"]),
  (s%"ze", [s%"zel"]),
  (s%"ze'e", [s%"ze'e"]),
  (s%"zejvo", []),
  (s%"zekri", [s%"zer", s%"zei"]),
  (s%"zenba", [s%"zen", s%"ze'a"]),
  (s%"ze'o", [s%"zev", s%"ze'o"]),
  (s%"zepti", [s%"zep"]),
  (s%"zergi", []),
  (s%"zetro", [s%"zet"]),
  (s%"zevla", [s%"zve"]),
  (s%"zgadi", []),
  (s%"zgana", [s%"zga"]),
  (s%"zgike", [s%"gi'e", s%"zgi"]),
  (s%"zguro", []),
  (s%"zifre", [s%"zif", s%"zi'e"]),
  (s%"zinki", [s%"zin", s%"zi'i"]),
  (s%"zi'o", [s%"zil"]),
  (s%"zirli", []),
  (s%"zirpu", [s%"zir", s%"zi'u"]),
  (s%"zivle", [s%"ziv", s%"vle"]),
  (s%"zmadu", [s%"zma", s%"mau"]),
  (s%"zmase", []),
  (s%"zmico", [s%"zic"]),
  (s%"zmiku", [s%"zmi"]),
  (s%"zo'a", [s%"zon", s%"zo'a"]),
  (s%"zo'i", [s%"zor", s%"zo'i"]),
  (s%"zorti", []),
  (s%"zozno", []),
  (s%"zubra", []),
  (s%"zucna", [s%"zuc", s%"zu'a"]),
  (s%"zukte", [s%"zuk", s%"zu'e"]),
  (s%"zulna", []),
  (s%"zumri", [s%"zmu"]),
  (s%"zungi", [s%"zug"]),
  (s%"zunle", [s%"zul"]),
  (s%"zunti", [s%"zun", s%"zu'i"]),
  (s%"zu'o", [s%"zum"]),
  (s%"zurja", [s%"zuj"]),
  (s%"zutse", [s%"zut", s%"tse"]),
  (s%"zvati", [s%"zva"]),
  (s%"zviki", [s%"zvi"]),
  (s%"zvomo", [s%"zvo"]),
  (s%"zvuzu", []),
  (s%"xi", [s%"xix"]),
  (s%"zai'e", [s%"zam"]),
  (s%"gelse", [s%"ges", s%"ge'e"]),
  (s%"je'ebzi", [s%"jeb"]),
  (s%"mu'umgu", [s%"mug"]),
  (s%"va'arga", [s%"va'a"]),
  (s%"co'ai", [s%"cox"]),
  (s%"dau", [s%"duv"]),
  (s%"fei", [s%"fel"])
]

/-- rafsi.py:2002-2022. -/
def rafsiChunk20 : List (Str × List Str) := [
  (s%"ga'ei", [s%"gel"]),
  (s%"gai", [s%"gam"]),
  (s%"jau", [s%"juz"]),
  (s%"ke'ai", [s%"ked"]),
  (s%"ke'ei", [s%"keb"]),
  (s%"ke'ei'a", [s%"kex"]),
  (s%"lai'ai", [s%"lav"]),
  (s%"sa", [s%"saf"]),
  (s%"si", [s%"sif"]),
  (s%"su", [s%"suf"]),
  (s%"su'ei", [s%"sem"]),
  (s%"tau'u", [s%"tux"]),
  (s%"to'ai", [s%"toz"]),
  (s%"vai", [s%"vav"]),
  (s%"vo'a", [s%"vob"]),
  (s%"vo'ai", [s%"voz"]),
  (s%"xei", [s%"xem"]),
  (s%"xo'ai", [s%"xoz"]),
  (s%"xo'ei", [s%"xon"]),
  (s%"zei'e", [s%"zex"]),
  (s%"zei'o", [s%"zes"])
]

/-- rafsi.py:1-2023: `RAFSI_LIST`, as an association list in dict iteration order. -/
def RAFSI_LIST : List (Str × List Str) :=
  rafsiChunk0 ++
  rafsiChunk1 ++
  rafsiChunk2 ++
  rafsiChunk3 ++
  rafsiChunk4 ++
  rafsiChunk5 ++
  rafsiChunk6 ++
  rafsiChunk7 ++
  rafsiChunk8 ++
  rafsiChunk9 ++
  rafsiChunk10 ++
  rafsiChunk11 ++
  rafsiChunk12 ++
  rafsiChunk13 ++
  rafsiChunk14 ++
  rafsiChunk15 ++
  rafsiChunk16 ++
  rafsiChunk17 ++
  rafsiChunk18 ++
  rafsiChunk19 ++
  rafsiChunk20

end Jvotci
