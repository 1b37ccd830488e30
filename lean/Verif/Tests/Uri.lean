import Verif.Props.Parse

/-!
# The project's own unit tests, run on the model: `unittests/uri/test_uri.cpp`

Generated by `tools/gen_conformance.py`.  Tests of the model, not proofs of properties: each `example` evaluates the model on the
input of an assertion of the project's test suite and compares with the value expected there.
-/

namespace Verif.Tests

/-- Signed `char`, as on the project's CI machines. -/
def pl : Plat := ⟨true⟩
/-- A view of a literal. -/
def v (s : Str) : SV := ⟨4096, s⟩
/-- Parse and forget addresses. -/
def parsed (s : Str) : Option (Option (Parts Str)) := ((splitReference pl (v s)).map (·.map Parts.text)).toOption
/-- `EXPECT_EQ (uri::split (a), uri::join (b, c))`. -/
def joins (a b c : Str) : Bool :=
  match split pl (v a), joinStr pl (v b) (v c) true with
  | .ok (some p), .ok (some q) => Parts.eq p q
  | _, _ => false
/-- Parse and remove dot segments. -/
def dotless (s : Str) : Option (Path Str) :=
  ((splitReference pl (v s)).toOption.join).map fun p => p.path.removeDotSegments.map SV.chars


/-! `UriSplit.Empty` -/
example : parsed ([]) = some (some ⟨none, none, ⟨false, []⟩, none, none⟩) := by decide +kernel
/-! `UriSplit.EmptyPathComponents` -/
example : parsed (b! "/foo///bar") = some (some ⟨none, none, ⟨true, [b! "foo", [], [], b! "bar"]⟩, none, none⟩) := by decide +kernel
/-! `UriSplit.0001` -/
example : parsed (b! "C://[::A:eE5c]:2194/&///@//:_/%aB//.////#") = some (some ⟨some (b! "C"), some ⟨none, b! "[::A:eE5c]", some (b! "2194")⟩, ⟨true, [b! "&", [], [], b! "@", [], b! ":_", b! "%aB", [], b! ".", [], [], [], []]⟩, none, some ([])⟩) := by decide +kernel
example : Path.toStr (Path.map v ⟨true, [b! "&", [], [], b! "@", [], b! ":_", b! "%aB", [], b! ".", [], [], [], []]⟩) = b! "/&///@//:_/%aB//.////" := by decide +kernel
example : Path.toFs (Path.map v ⟨true, [b! "&", [], [], b! "@", [], b! ":_", b! "%aB", [], b! ".", [], [], [], []]⟩) = b! "/&/@/:_/%aB/./" := by decide +kernel
/-! `UriSplit.0002` -/
example : parsed (b! "P-.:/?/?") = some (some ⟨some (b! "P-."), none, ⟨true, [[]]⟩, some (b! "/?"), none⟩) := by decide +kernel
/-! `UriSplit.0003` -/
example : parsed (b! "i+V:?") = some (some ⟨some (b! "i+V"), none, ⟨false, []⟩, some ([]), none⟩) := by decide +kernel
/-! `UriSplit.0004` -/
example : parsed (b! "L:%Cf#%dD/?H") = some (some ⟨some (b! "L"), none, ⟨false, [b! "%Cf"]⟩, none, some (b! "%dD/?H")⟩) := by decide +kernel
example : Path.toStr (Path.map v ⟨false, [b! "%Cf"]⟩) = b! "%Cf" := by decide +kernel
example : Path.toFs (Path.map v ⟨false, [b! "%Cf"]⟩) = b! "%Cf" := by decide +kernel
/-! `UriSplit.0005` -/
example : parsed (b! "E07:/8=-~%bF//%36////'/%16N%78//)/%53/;?*!") = some (some ⟨some (b! "E07"), none, ⟨true, [b! "8=-~%bF", [], b! "%36", [], [], [], b! "'", b! "%16N%78", [], b! ")", b! "%53", b! ";"]⟩, some (b! "*!"), none⟩) := by decide +kernel
/-! `UriSplit.0006` -/
example : parsed (b! "v:") = some (some ⟨some (b! "v"), none, ⟨false, []⟩, none, none⟩) := by decide +kernel
/-! `UriSplit.0007` -/
example : parsed (b! "YXa:/#B") = some (some ⟨some (b! "YXa"), none, ⟨true, [[]]⟩, none, some (b! "B")⟩) := by decide +kernel
/-! `UriSplit.0008` -/
example : parsed (b! "n:/,+?$#(+!)D") = some (some ⟨some (b! "n"), none, ⟨true, [b! ",+"]⟩, some (b! "$"), some (b! "(+!)D")⟩) := by decide +kernel
/-! `UriSplit.0009` -/
example : parsed (b! "m:/?cJ") = some (some ⟨some (b! "m"), none, ⟨true, [[]]⟩, some (b! "cJ"), none⟩) := by decide +kernel
/-! `UriSplit.0010` -/
example : parsed (b! "zR:d/M/kx/s/GTl///SgA/?#") = some (some ⟨some (b! "zR"), none, ⟨false, [b! "d", b! "M", b! "kx", b! "s", b! "GTl", [], [], b! "SgA", []]⟩, some ([]), some ([])⟩) := by decide +kernel
/-! `UriSplit.0011` -/
example : parsed (b! "t:W?p#") = some (some ⟨some (b! "t"), none, ⟨false, [b! "W"]⟩, some (b! "p"), some ([])⟩) := by decide +kernel
/-! `UriSplit.0012` -/
example : parsed (b! "QrIq:/#") = some (some ⟨some (b! "QrIq"), none, ⟨true, [[]]⟩, none, some ([])⟩) := by decide +kernel
/-! `UriSplit.0013` -/
example : parsed (b! "OuU:/?bZK") = some (some ⟨some (b! "OuU"), none, ⟨true, [[]]⟩, some (b! "bZK"), none⟩) := by decide +kernel
/-! `UriSplit.0014` -/
example : parsed (b! "Fjfe:?h") = some (some ⟨some (b! "Fjfe"), none, ⟨false, []⟩, some (b! "h"), none⟩) := by decide +kernel
/-! `UriSplit.0015` -/
example : parsed (b! "y:w/o/b/?lKTF") = some (some ⟨some (b! "y"), none, ⟨false, [b! "w", b! "o", b! "b", []]⟩, some (b! "lKTF"), none⟩) := by decide +kernel
/-! `UriSplit.0016` -/
example : parsed (b! "P://=:_%bb%Cf%2F-8;~@230.109.31.250#.") = some (some ⟨some (b! "P"), some ⟨some (b! "=:_%bb%Cf%2F-8;~"), b! "230.109.31.250", none⟩, ⟨false, []⟩, none, some (b! ".")⟩) := by decide +kernel
/-! `UriSplit.0017` -/
example : parsed (b! "N://@=i%bD%Cb&*%Ea)%CE//:%cA//#?//") = some (some ⟨some (b! "N"), some ⟨some ([]), b! "=i%bD%Cb&*%Ea)%CE", none⟩, ⟨true, [[], b! ":%cA", [], []]⟩, none, some (b! "?//")⟩) := by decide +kernel
example : Path.toStr (Path.map v ⟨true, [[], b! ":%cA", [], []]⟩) = b! "//:%cA//" := by decide +kernel
example : Path.toFs (Path.map v ⟨true, [[], b! ":%cA", [], []]⟩) = b! "/:%cA/" := by decide +kernel
/-! `UriSplit.0018` -/
example : parsed (b! "X:#") = some (some ⟨some (b! "X"), none, ⟨false, []⟩, none, some ([])⟩) := by decide +kernel
/-! `UriSplit.0019` -/
example : parsed (b! "U:??") = some (some ⟨some (b! "U"), none, ⟨false, []⟩, some (b! "?"), none⟩) := by decide +kernel
/-! `UriSplit.0020` -/
example : parsed (b! "G:") = some (some ⟨some (b! "G"), none, ⟨false, []⟩, none, none⟩) := by decide +kernel
/-! `UriSplit.0021` -/
example : parsed (b! "l6+:?#") = some (some ⟨some (b! "l6+"), none, ⟨false, []⟩, some ([]), some ([])⟩) := by decide +kernel
/-! `UriSplit.0022` -/
example : parsed (b! "T.-://:@[VD.~]:?/@#") = some (some ⟨some (b! "T.-"), some ⟨some (b! ":"), b! "[VD.~]", some ([])⟩, ⟨false, []⟩, some (b! "/@"), some ([])⟩) := by decide +kernel
/-! `UriSplit.0023` -/
example : parsed (b! "rC://3.76.206.5:8966?/") = some (some ⟨some (b! "rC"), some ⟨none, b! "3.76.206.5", some (b! "8966")⟩, ⟨false, []⟩, some (b! "/"), none⟩) := by decide +kernel
/-! `UriSplit.0024` -/
example : parsed (b! "oNP:///::") = some (some ⟨some (b! "oNP"), some ⟨none, [], none⟩, ⟨true, [b! "::"]⟩, none, none⟩) := by decide +kernel
/-! `UriSplit.0025` -/
example : parsed (b! "g0:?#") = some (some ⟨some (b! "g0"), none, ⟨false, []⟩, some ([]), some ([])⟩) := by decide +kernel
/-! `UriSplit.0026` -/
example : parsed (b! "Do1-:") = some (some ⟨some (b! "Do1-"), none, ⟨false, []⟩, none, none⟩) := by decide +kernel
/-! `UriSplit.0027` -/
example : parsed (b! "K:?") = some (some ⟨some (b! "K"), none, ⟨false, []⟩, some ([]), none⟩) := by decide +kernel
/-! `UriSplit.0028` -/
example : parsed (b! "tc://@[::F]:/::@~?@/") = some (some ⟨some (b! "tc"), some ⟨some ([]), b! "[::F]", some ([])⟩, ⟨true, [b! "::@~"]⟩, some (b! "@/"), none⟩) := by decide +kernel
/-! `UriSplit.0029` -/
example : parsed (b! "N:#") = some (some ⟨some (b! "N"), none, ⟨false, []⟩, none, some ([])⟩) := by decide +kernel
/-! `UriSplit.0030` -/
example : parsed (b! "o:") = some (some ⟨some (b! "o"), none, ⟨false, []⟩, none, none⟩) := by decide +kernel
/-! `UriSplit.0031` -/
example : parsed (b! "k-0+:???/") = some (some ⟨some (b! "k-0+"), none, ⟨false, []⟩, some (b! "??/"), none⟩) := by decide +kernel
/-! `UriSplit.0032` -/
example : parsed (b! "y://%DD@253.216.255.251//aa/??/://;") = some (some ⟨some (b! "y"), some ⟨some (b! "%DD"), b! "253.216.255.251", none⟩, ⟨true, [[], b! "aa", []]⟩, some (b! "?/://;"), none⟩) := by decide +kernel
example : Path.toStr (Path.map v ⟨true, [[], b! "aa", []]⟩) = b! "//aa/" := by decide +kernel
example : Path.toFs (Path.map v ⟨true, [[], b! "aa", []]⟩) = b! "/aa/" := by decide +kernel
/-! `UriSplit.0033` -/
example : parsed (b! "B://.@[AC::1:6DEb:14.97.229.249]:?/#??~(") = some (some ⟨some (b! "B"), some ⟨some (b! "."), b! "[AC::1:6DEb:14.97.229.249]", some ([])⟩, ⟨false, []⟩, some (b! "/"), some (b! "??~(")⟩) := by decide +kernel
/-! `UriSplit.0034` -/
example : parsed (b! "p://@26.254.86.252://aa") = some (some ⟨some (b! "p"), some ⟨some ([]), b! "26.254.86.252", some ([])⟩, ⟨true, [[], b! "aa"]⟩, none, none⟩) := by decide +kernel
example : Path.toStr (Path.map v ⟨true, [[], b! "aa"]⟩) = b! "//aa" := by decide +kernel
example : Path.toFs (Path.map v ⟨true, [[], b! "aa"]⟩) = b! "/aa" := by decide +kernel
/-! `UriSplit.0035` -/
example : parsed (b! "P+-n:#/%f0") = some (some ⟨some (b! "P+-n"), none, ⟨false, []⟩, none, some (b! "/%f0")⟩) := by decide +kernel
/-! `UriSplit.0036` -/
example : parsed (b! "u:?") = some (some ⟨some (b! "u"), none, ⟨false, []⟩, some ([]), none⟩) := by decide +kernel
/-! `UriSplit.0037` -/
example : parsed (b! "U://%Aa:@[::b:E:A:53.48.69.41]?") = some (some ⟨some (b! "U"), some ⟨some (b! "%Aa:"), b! "[::b:E:A:53.48.69.41]", none⟩, ⟨false, []⟩, some ([]), none⟩) := by decide +kernel
/-! `UriSplit.0038` -/
example : parsed (b! "h.P+9:?:#?") = some (some ⟨some (b! "h.P+9"), none, ⟨false, []⟩, some (b! ":"), some (b! "?")⟩) := by decide +kernel
/-! `UriSplit.0039` -/
example : parsed (b! "x:??#") = some (some ⟨some (b! "x"), none, ⟨false, []⟩, some (b! "?"), some ([])⟩) := by decide +kernel
/-! `UriSplit.0040` -/
example : parsed (b! "A:#") = some (some ⟨some (b! "A"), none, ⟨false, []⟩, none, some ([])⟩) := by decide +kernel
/-! `UriSplit.0041` -/
example : parsed (b! "Lp.:?#") = some (some ⟨some (b! "Lp."), none, ⟨false, []⟩, some ([]), some ([])⟩) := by decide +kernel
/-! `UriSplit.0042` -/
example : parsed (b! "d-:#") = some (some ⟨some (b! "d-"), none, ⟨false, []⟩, none, some ([])⟩) := by decide +kernel
/-! `UriSplit.0043` -/
example : parsed (b! "h-.:?/?/#") = some (some ⟨some (b! "h-."), none, ⟨false, []⟩, some (b! "/?/"), some ([])⟩) := by decide +kernel
/-! `UriSplit.0044` -/
example : parsed (b! "d:") = some (some ⟨some (b! "d"), none, ⟨false, []⟩, none, none⟩) := by decide +kernel
/-! `UriSplit.0045` -/
example : parsed (b! "L:") = some (some ⟨some (b! "L"), none, ⟨false, []⟩, none, none⟩) := by decide +kernel
/-! `UriSplit.0046` -/
example : parsed (b! "Z5://@[9:BB:8:DAc:BbAA:E:a::]?#@$") = some (some ⟨some (b! "Z5"), some ⟨some ([]), b! "[9:BB:8:DAc:BbAA:E:a::]", none⟩, ⟨false, []⟩, some ([]), some (b! "@$")⟩) := by decide +kernel
/-! `UriSplit.0047` -/
example : parsed (b! "C-://[::1E:BB:a:5c1:Dd:40.44.228.108]/;?#") = some (some ⟨some (b! "C-"), some ⟨none, b! "[::1E:BB:a:5c1:Dd:40.44.228.108]", none⟩, ⟨true, [b! ";"]⟩, some ([]), some ([])⟩) := by decide +kernel
/-! `UriSplit.0048` -/
example : parsed (b! "z://[c:BC:b:A:Bd:D:dC1f:cedB]?/#/:/%FA") = some (some ⟨some (b! "z"), some ⟨none, b! "[c:BC:b:A:Bd:D:dC1f:cedB]", none⟩, ⟨false, []⟩, some (b! "/"), some (b! "/:/%FA")⟩) := by decide +kernel
/-! `UriSplit.0049` -/
example : parsed (b! "x.2:#") = some (some ⟨some (b! "x.2"), none, ⟨false, []⟩, none, some ([])⟩) := by decide +kernel
/-! `UriSplit.0050` -/
example : parsed (b! "p://@[::F:e:4b:eCBE:f:c]") = some (some ⟨some (b! "p"), some ⟨some ([]), b! "[::F:e:4b:eCBE:f:c]", none⟩, ⟨false, []⟩, none, none⟩) := by decide +kernel
/-! `UriSplit.0051` -/
example : parsed (b! "tmi://[e:C:Aa:eD::FDfD:b:F]:?") = some (some ⟨some (b! "tmi"), some ⟨none, b! "[e:C:Aa:eD::FDfD:b:F]", some ([])⟩, ⟨false, []⟩, some ([]), none⟩) := by decide +kernel
/-! `UriSplit.0052` -/
example : parsed (b! "G+:") = some (some ⟨some (b! "G+"), none, ⟨false, []⟩, none, none⟩) := by decide +kernel
/-! `UriSplit.0053` -/
example : parsed (b! "A://[vA5.+:=.p~=)=&_;-=7)(.;]:768295/+") = some (some ⟨some (b! "A"), some ⟨none, b! "[vA5.+:=.p~=)=&_;-=7)(.;]", some (b! "768295")⟩, ⟨true, [b! "+"]⟩, none, none⟩) := by decide +kernel
/-! `UriSplit.0054` -/
example : parsed (b! "n+://[::]:9831#") = some (some ⟨some (b! "n+"), some ⟨none, b! "[::]", some (b! "9831")⟩, ⟨false, []⟩, none, some ([])⟩) := by decide +kernel
/-! `UriSplit.0055` -/
example : parsed (b! "v-2e.l:?:????:/") = some (some ⟨some (b! "v-2e.l"), none, ⟨false, []⟩, some (b! ":????:/"), none⟩) := by decide +kernel
/-! `UriSplit.0056` -/
example : parsed (b! "ka+://6.@[F::219.226.254.253]:900/'R#") = some (some ⟨some (b! "ka+"), some ⟨some (b! "6."), b! "[F::219.226.254.253]", some (b! "900")⟩, ⟨true, [b! "'R"]⟩, none, some ([])⟩) := by decide +kernel
/-! `UriSplit.0057` -/
example : parsed (b! "P://[daf::B:7:e:b:D:F]:730") = some (some ⟨some (b! "P"), some ⟨none, b! "[daf::B:7:e:b:D:F]", some (b! "730")⟩, ⟨false, []⟩, none, none⟩) := by decide +kernel
/-! `UriSplit.0058` -/
example : parsed (b! "H://-!:_%Bd@[::]:7") = some (some ⟨some (b! "H"), some ⟨some (b! "-!:_%Bd"), b! "[::]", some (b! "7")⟩, ⟨false, []⟩, none, none⟩) := by decide +kernel
/-! `UriSplit.0059` -/
example : parsed (b! "u+://;@[::dFC:d:6:d]://#") = some (some ⟨some (b! "u+"), some ⟨some (b! ";"), b! "[::dFC:d:6:d]", some ([])⟩, ⟨true, [[], []]⟩, none, some ([])⟩) := by decide +kernel
example : Path.toStr (Path.map v ⟨true, [[], []]⟩) = b! "//" := by decide +kernel
example : Path.toFs (Path.map v ⟨true, [[], []]⟩) = b! "/" := by decide +kernel
/-! `UriSplit.0060` -/
example : parsed (b! "D://[dCDa:c:e:B:F::D:a]:/%Dc") = some (some ⟨some (b! "D"), some ⟨none, b! "[dCDa:c:e:B:F::D:a]", some ([])⟩, ⟨true, [b! "%Dc"]⟩, none, none⟩) := by decide +kernel
/-! `UriSplit.0061` -/
example : parsed (b! "mF2:") = some (some ⟨some (b! "mF2"), none, ⟨false, []⟩, none, none⟩) := by decide +kernel
/-! `UriSplit.0062` -/
example : parsed (b! "f.://[d1b:CF:AbBa::F:d:11.246.155.253]?") = some (some ⟨some (b! "f."), some ⟨none, b! "[d1b:CF:AbBa::F:d:11.246.155.253]", none⟩, ⟨false, []⟩, some ([]), none⟩) := by decide +kernel
/-! `UriSplit.0063` -/
example : parsed (b! "f5++://@[7d::6:df:f:245.95.78.9]:??") = some (some ⟨some (b! "f5++"), some ⟨some ([]), b! "[7d::6:df:f:245.95.78.9]", some ([])⟩, ⟨false, []⟩, some (b! "?"), none⟩) := by decide +kernel
/-! `UriSplit.0064` -/
example : parsed (b! "c.l://[::bba:B:6:1.255.161.3]:#?/") = some (some ⟨some (b! "c.l"), some ⟨none, b! "[::bba:B:6:1.255.161.3]", some ([])⟩, ⟨false, []⟩, none, some (b! "?/")⟩) := by decide +kernel
/-! `UriSplit.0065` -/
example : parsed (b! "T://[fdF::f2]") = some (some ⟨some (b! "T"), some ⟨none, b! "[fdF::f2]", none⟩, ⟨false, []⟩, none, none⟩) := by decide +kernel
/-! `UriSplit.0066` -/
example : parsed (b! "U-92.://[::A:C:c]/") = some (some ⟨some (b! "U-92."), some ⟨none, b! "[::A:C:c]", none⟩, ⟨true, [[]]⟩, none, none⟩) := by decide +kernel
example : Path.toStr (Path.map v ⟨true, [[]]⟩) = b! "/" := by decide +kernel
example : Path.toFs (Path.map v ⟨true, [[]]⟩) = b! "/" := by decide +kernel
/-! `UriSplit.0067` -/
example : parsed (b! "K:?#") = some (some ⟨some (b! "K"), none, ⟨false, []⟩, some ([]), some ([])⟩) := by decide +kernel
/-! `UriSplit.0068` -/
example : parsed (b! "l.://[c:CEa:cd1B:f:f:D::ef]?#%bC@/:") = some (some ⟨some (b! "l."), some ⟨none, b! "[c:CEa:cd1B:f:f:D::ef]", none⟩, ⟨false, []⟩, some ([]), some (b! "%bC@/:")⟩) := by decide +kernel
/-! `UriSplit.0069` -/
example : parsed (b! "v+://@[::C:dEd:4:218.255.251.5]:8/@.;J??Q??%48/#") = some (some ⟨some (b! "v+"), some ⟨some ([]), b! "[::C:dEd:4:218.255.251.5]", some (b! "8")⟩, ⟨true, [b! "@.;J"]⟩, some (b! "?Q??%48/"), some ([])⟩) := by decide +kernel
/-! `UriSplit.0070` -/
example : parsed (b! "I:?#") = some (some ⟨some (b! "I"), none, ⟨false, []⟩, some ([]), some ([])⟩) := by decide +kernel
/-! `UriSplit.0071` -/
example : parsed (b! "t.+://[::Ec:AcA:9a]:92/%8a/#") = some (some ⟨some (b! "t.+"), some ⟨none, b! "[::Ec:AcA:9a]", some (b! "92")⟩, ⟨true, [b! "%8a", []]⟩, none, some ([])⟩) := by decide +kernel
example : Path.toStr (Path.map v ⟨true, [b! "%8a", []]⟩) = b! "/%8a/" := by decide +kernel
example : Path.toFs (Path.map v ⟨true, [b! "%8a", []]⟩) = b! "/%8a/" := by decide +kernel
/-! `UriSplit.0072` -/
example : parsed (b! "N+:?~") = some (some ⟨some (b! "N+"), none, ⟨false, []⟩, some (b! "~"), none⟩) := by decide +kernel
/-! `UriSplit.0073` -/
example : parsed (b! "B:?/.#?") = some (some ⟨some (b! "B"), none, ⟨false, []⟩, some (b! "/."), some (b! "?")⟩) := by decide +kernel
/-! `UriSplit.0074` -/
example : parsed (b! "u8K.://.(@[d::Baa:dE:D]#/") = some (some ⟨some (b! "u8K."), some ⟨some (b! ".("), b! "[d::Baa:dE:D]", none⟩, ⟨false, []⟩, none, some (b! "/")⟩) := by decide +kernel
/-! `UriSplit.0075` -/
example : parsed (b! "E+.://@[::F:ab79:B:fa:C]#") = some (some ⟨some (b! "E+."), some ⟨some ([]), b! "[::F:ab79:B:fa:C]", none⟩, ⟨false, []⟩, none, some ([])⟩) := by decide +kernel
/-! `UriSplit.0076` -/
example : parsed (b! "S+://[::BBc:d0:EA:3.67.149.137]:/?#/") = some (some ⟨some (b! "S+"), some ⟨none, b! "[::BBc:d0:EA:3.67.149.137]", some ([])⟩, ⟨true, [[]]⟩, some ([]), some (b! "/")⟩) := by decide +kernel
example : Path.toStr (Path.map v ⟨true, [[]]⟩) = b! "/" := by decide +kernel
example : Path.toFs (Path.map v ⟨true, [[]]⟩) = b! "/" := by decide +kernel
/-! `UriSplit.0077` -/
example : parsed (b! "Y://[4Bbc:bb::cDcd:5:c4:e:B1]:/%CA@/./??") = some (some ⟨some (b! "Y"), some ⟨none, b! "[4Bbc:bb::cDcd:5:c4:e:B1]", some ([])⟩, ⟨true, [b! "%CA@", b! ".", []]⟩, some (b! "?"), none⟩) := by decide +kernel
example : Path.toStr (Path.map v ⟨true, [b! "%CA@", b! ".", []]⟩) = b! "/%CA@/./" := by decide +kernel
example : Path.toFs (Path.map v ⟨true, [b! "%CA@", b! ".", []]⟩) = b! "/%CA@/./" := by decide +kernel
/-! `UriSplit.0078` -/
example : parsed (b! "W.-://[CF::]://!?") = some (some ⟨some (b! "W.-"), some ⟨none, b! "[CF::]", some ([])⟩, ⟨true, [[], b! "!"]⟩, some ([]), none⟩) := by decide +kernel
example : Path.toStr (Path.map v ⟨true, [[], b! "!"]⟩) = b! "//!" := by decide +kernel
example : Path.toFs (Path.map v ⟨true, [[], b! "!"]⟩) = b! "/!" := by decide +kernel
/-! `UriSplit.0079` -/
example : parsed (b! "SF6:#") = some (some ⟨some (b! "SF6"), none, ⟨false, []⟩, none, some ([])⟩) := by decide +kernel
/-! `UriSplit.0080` -/
example : parsed (b! "R:?????////???/////#??@?_:?") = some (some ⟨some (b! "R"), none, ⟨false, []⟩, some (b! "????////???/////"), some (b! "??@?_:?")⟩) := by decide +kernel
/-! `UriSplit.0081` -/
example : parsed (b! "g:") = some (some ⟨some (b! "g"), none, ⟨false, []⟩, none, none⟩) := by decide +kernel
/-! `UriSplit.0082` -/
example : parsed (b! "D-ir+.PA:??#") = some (some ⟨some (b! "D-ir+.PA"), none, ⟨false, []⟩, some (b! "?"), some ([])⟩) := by decide +kernel
/-! `UriSplit.0083` -/
example : parsed (b! "Z-.-:") = some (some ⟨some (b! "Z-.-"), none, ⟨false, []⟩, none, none⟩) := by decide +kernel
/-! `UriSplit.0084` -/
example : parsed (b! "y-:") = some (some ⟨some (b! "y-"), none, ⟨false, []⟩, none, none⟩) := by decide +kernel
/-! `UriSplit.0085` -/
example : parsed (b! "p:?") = some (some ⟨some (b! "p"), none, ⟨false, []⟩, some ([]), none⟩) := by decide +kernel
/-! `UriSplit.0086` -/
example : parsed (b! "M:#*.") = some (some ⟨some (b! "M"), none, ⟨false, []⟩, none, some (b! "*.")⟩) := by decide +kernel
/-! `UriSplit.0087` -/
example : parsed (b! "I:?%ab#/.") = some (some ⟨some (b! "I"), none, ⟨false, []⟩, some (b! "%ab"), some (b! "/.")⟩) := by decide +kernel
/-! `UriSplit.0088` -/
example : parsed (b! "v6:#:?") = some (some ⟨some (b! "v6"), none, ⟨false, []⟩, none, some (b! ":?")⟩) := by decide +kernel
/-! `UriSplit.0089` -/
example : parsed (b! "D:#") = some (some ⟨some (b! "D"), none, ⟨false, []⟩, none, some ([])⟩) := by decide +kernel
/-! `UriSplit.0090` -/
example : parsed (b! "e.:#") = some (some ⟨some (b! "e."), none, ⟨false, []⟩, none, some ([])⟩) := by decide +kernel
/-! `UriSplit.0091` -/
example : parsed (b! "L:?#") = some (some ⟨some (b! "L"), none, ⟨false, []⟩, some ([]), some ([])⟩) := by decide +kernel
/-! `UriSplit.0092` -/
example : parsed (b! "g-:#") = some (some ⟨some (b! "g-"), none, ⟨false, []⟩, none, some ([])⟩) := by decide +kernel
/-! `UriSplit.0093` -/
example : parsed (b! "H:") = some (some ⟨some (b! "H"), none, ⟨false, []⟩, none, none⟩) := by decide +kernel
/-! `UriSplit.0094` -/
example : parsed (b! "K:??") = some (some ⟨some (b! "K"), none, ⟨false, []⟩, some (b! "?"), none⟩) := by decide +kernel
/-! `UriSplit.0095` -/
example : parsed (b! "c-:?#") = some (some ⟨some (b! "c-"), none, ⟨false, []⟩, some ([]), some ([])⟩) := by decide +kernel
/-! `UriSplit.0096` -/
example : parsed (b! "Bw:?") = some (some ⟨some (b! "Bw"), none, ⟨false, []⟩, some ([]), none⟩) := by decide +kernel
/-! `UriSplit.0097` -/
example : parsed (b! "hC:?") = some (some ⟨some (b! "hC"), none, ⟨false, []⟩, some ([]), none⟩) := by decide +kernel
/-! `UriSplit.0098` -/
example : parsed (b! "q:?/#/") = some (some ⟨some (b! "q"), none, ⟨false, []⟩, some (b! "/"), some (b! "/")⟩) := by decide +kernel
/-! `UriSplit.0099` -/
example : parsed (b! "L:") = some (some ⟨some (b! "L"), none, ⟨false, []⟩, none, none⟩) := by decide +kernel
/-! `UriSplit.0100` -/
example : parsed (b! "W-:?") = some (some ⟨some (b! "W-"), none, ⟨false, []⟩, some ([]), none⟩) := by decide +kernel
/-! `RemoveDotSegments.LeadingDotDotSlash` -/
example : dotless (b! "../bar") = some ⟨false, [b! "bar"]⟩ := by decide +kernel
/-! `RemoveDotSegments.LeadingDotSlash` -/
example : dotless (b! "./bar") = some ⟨false, [b! "bar"]⟩ := by decide +kernel
/-! `RemoveDotSegments.LeadingDotDotSlashDotSlash` -/
example : dotless (b! ".././bar") = some ⟨false, [b! "bar"]⟩ := by decide +kernel
/-! `RemoveDotSegments.MidDot` -/
example : dotless (b! "/foo/./bar") = some ⟨true, [b! "foo", b! "bar"]⟩ := by decide +kernel
/-! `RemoveDotSegments.LonelySlashDot` -/
example : dotless (b! "/.") = some ⟨true, [[]]⟩ := by decide +kernel
/-! `RemoveDotSegments.TrailingDotSlash` -/
example : dotless (b! "/bar/./") = some ⟨true, [b! "bar", []]⟩ := by decide +kernel
/-! `RemoveDotSegments.MidSlashDotDot` -/
example : dotless (b! "/foo/../bar") = some ⟨true, [b! "bar"]⟩ := by decide +kernel
/-! `RemoveDotSegments.TrailingDotDotSlash` -/
example : dotless (b! "/bar/../") = some ⟨true, [[]]⟩ := by decide +kernel
/-! `RemoveDotSegments.LonelySlashDotDot` -/
example : dotless (b! "/..") = some ⟨true, [[]]⟩ := by decide +kernel
/-! `RemoveDotSegments.TrailingSlashDotDot` -/
example : dotless (b! "/bar/..") = some ⟨true, [[]]⟩ := by decide +kernel
/-! `RemoveDotSegments.TwoDirectoriesTrailingSlashDotDot` -/
example : dotless (b! "/foo/bar/..") = some ⟨true, [b! "foo", []]⟩ := by decide +kernel
/-! `RemoveDotSegments.LonelyDot` -/
example : dotless (b! ".") = some ⟨false, [[]]⟩ := by decide +kernel
/-! `RemoveDotSegments.LonelyDotDot` -/
example : dotless (b! "..") = some ⟨false, [[]]⟩ := by decide +kernel
/-! `RemoveDotSegments.LonelyDotDotSlashDot` -/
example : dotless (b! "../.") = some ⟨false, [[]]⟩ := by decide +kernel
/-! `UriFileSystemPath.Root` -/
example : Path.toFs (Path.map v ⟨true, []⟩) = b! "/" := by decide +kernel
/-! `UriFileSystemPath.RootFoo` -/
example : Path.toFs (Path.map v ⟨true, [b! "foo"]⟩) = b! "/foo" := by decide +kernel
/-! `UriFileSystemPath.AbsoluteTwoSegments` -/
example : Path.toFs (Path.map v ⟨true, [b! "foo", b! "bar"]⟩) = b! "/foo/bar" := by decide +kernel
/-! `UriFileSystemPath.AbsoluteTwoSegmentsDirectory` -/
example : Path.toFs (Path.map v ⟨true, [b! "foo", b! "bar", []]⟩) = b! "/foo/bar/" := by decide +kernel
/-! `UriFileSystemPath.RelativeTwoSegments` -/
example : Path.toFs (Path.map v ⟨false, [b! "foo", b! "bar"]⟩) = b! "foo/bar" := by decide +kernel
/-! `UriFileSystemPath.RelativeTwoSegmentsDirectory` -/
example : Path.toFs (Path.map v ⟨false, [b! "foo", b! "bar", []]⟩) = b! "foo/bar/" := by decide +kernel
/-! `Join.Normal` -/
example : joins (b! "g:h") (b! "http://a/b/c/d;p?q") (b! "g:h") = true := by decide +kernel
example : joins (b! "http://a/b/c/g") (b! "http://a/b/c/d;p?q") (b! "g") = true := by decide +kernel
example : joins (b! "http://a/b/c/g") (b! "http://a/b/c/d;p?q") (b! "./g") = true := by decide +kernel
example : joins (b! "http://a/b/c/g/") (b! "http://a/b/c/d;p?q") (b! "g/") = true := by decide +kernel
example : joins (b! "http://a/g") (b! "http://a/b/c/d;p?q") (b! "/g") = true := by decide +kernel
example : joins (b! "http://g") (b! "http://a/b/c/d;p?q") (b! "//g") = true := by decide +kernel
example : joins (b! "http://a/b/c/d;p?y") (b! "http://a/b/c/d;p?q") (b! "?y") = true := by decide +kernel
example : joins (b! "http://a/b/c/g?y") (b! "http://a/b/c/d;p?q") (b! "g?y") = true := by decide +kernel
example : joins (b! "http://a/b/c/d;p?q#s") (b! "http://a/b/c/d;p?q") (b! "#s") = true := by decide +kernel
example : joins (b! "http://a/b/c/d;p?q#s") (b! "http://a/b/c/d;p?q") (b! "#s") = true := by decide +kernel
example : joins (b! "http://a/b/c/g#s") (b! "http://a/b/c/d;p?q") (b! "g#s") = true := by decide +kernel
example : joins (b! "http://a/b/c/g?y#s") (b! "http://a/b/c/d;p?q") (b! "g?y#s") = true := by decide +kernel
example : joins (b! "http://a/b/c/;x") (b! "http://a/b/c/d;p?q") (b! ";x") = true := by decide +kernel
example : joins (b! "http://a/b/c/g;x") (b! "http://a/b/c/d;p?q") (b! "g;x") = true := by decide +kernel
example : joins (b! "http://a/b/c/g;x?y#s") (b! "http://a/b/c/d;p?q") (b! "g;x?y#s") = true := by decide +kernel
example : joins (b! "http://a/b/c/d;p?q") (b! "http://a/b/c/d;p?q") ([]) = true := by decide +kernel
example : joins (b! "http://a/b/c/") (b! "http://a/b/c/d;p?q") (b! ".") = true := by decide +kernel
example : joins (b! "http://a/b/c/") (b! "http://a/b/c/d;p?q") (b! "./") = true := by decide +kernel
example : joins (b! "http://a/b/") (b! "http://a/b/c/d;p?q") (b! "..") = true := by decide +kernel
example : joins (b! "http://a/b/") (b! "http://a/b/c/d;p?q") (b! "../") = true := by decide +kernel
example : joins (b! "http://a/b/g") (b! "http://a/b/c/d;p?q") (b! "../g") = true := by decide +kernel
example : joins (b! "http://a/") (b! "http://a/b/c/d;p?q") (b! "../..") = true := by decide +kernel
example : joins (b! "http://a/") (b! "http://a/b/c/d;p?q") (b! "../../") = true := by decide +kernel
example : joins (b! "http://a/g") (b! "http://a/b/c/d;p?q") (b! "../../g") = true := by decide +kernel
example : joins (b! "file://user@a/g") (b! "file://user@a") (b! "../../g") = true := by decide +kernel
/-! `Join.Abnormal` -/
example : joins (b! "http://a/g") (b! "http://a/b/c/d;p?q") (b! "../../../g") = true := by decide +kernel
example : joins (b! "http://a/g") (b! "http://a/b/c/d;p?q") (b! "../../../../g") = true := by decide +kernel
example : joins (b! "http://a/g") (b! "http://a/b/c/d;p?q") (b! "/./g") = true := by decide +kernel
example : joins (b! "http://a/g") (b! "http://a/b/c/d;p?q") (b! "/../g") = true := by decide +kernel
example : joins (b! "http://a/b/c/g.") (b! "http://a/b/c/d;p?q") (b! "g.") = true := by decide +kernel
example : joins (b! "http://a/b/c/.g") (b! "http://a/b/c/d;p?q") (b! ".g") = true := by decide +kernel
example : joins (b! "http://a/b/c/g..") (b! "http://a/b/c/d;p?q") (b! "g..") = true := by decide +kernel
example : joins (b! "http://a/b/c/..g") (b! "http://a/b/c/d;p?q") (b! "..g") = true := by decide +kernel
example : joins (b! "http://a/b/g") (b! "http://a/b/c/d;p?q") (b! "./../g") = true := by decide +kernel
example : joins (b! "http://a/b/c/g/") (b! "http://a/b/c/d;p?q") (b! "./g/.") = true := by decide +kernel
example : joins (b! "http://a/b/c/g/h") (b! "http://a/b/c/d;p?q") (b! "g/./h") = true := by decide +kernel
example : joins (b! "http://a/b/c/h") (b! "http://a/b/c/d;p?q") (b! "g/../h") = true := by decide +kernel
example : joins (b! "http://a/b/c/g;x=1/y") (b! "http://a/b/c/d;p?q") (b! "g;x=1/./y") = true := by decide +kernel
example : joins (b! "http://a/b/c/y") (b! "http://a/b/c/d;p?q") (b! "g;x=1/../y") = true := by decide +kernel
example : joins (b! "http://a/b/c/g?y/./x") (b! "http://a/b/c/d;p?q") (b! "g?y/./x") = true := by decide +kernel
example : joins (b! "http://a/b/c/g?y/../x") (b! "http://a/b/c/d;p?q") (b! "g?y/../x") = true := by decide +kernel
example : joins (b! "http://a/b/c/g#s/./x") (b! "http://a/b/c/d;p?q") (b! "g#s/./x") = true := by decide +kernel
example : joins (b! "http://a/b/c/g#s/../x") (b! "http://a/b/c/d;p?q") (b! "g#s/../x") = true := by decide +kernel
example : joins (b! "http:g") (b! "http://a/b/c/d;p?q") (b! "http:g") = true := by decide +kernel
/-! `UriCompose.Empty` -/
example : compose (Parts.map v ⟨none, none, ⟨false, []⟩, none, none⟩) = [] := by decide +kernel
/-! `UriCompose.Scheme` -/
example : compose (Parts.map v ⟨some (b! "file"), none, ⟨false, []⟩, none, none⟩) = b! "file:" := by decide +kernel
/-! `UriCompose.Authority` -/
example : compose (Parts.map v ⟨none, some ⟨some (b! "username"), b! "host", some (b! "123")⟩, ⟨false, []⟩, none, none⟩) = b! "//username@host:123" := by decide +kernel
example : ((splitReference pl (v (b! "//username@host:123"))).toOption.join.map (Parts.eq · (Parts.map v ⟨none, some ⟨some (b! "username"), b! "host", some (b! "123")⟩, ⟨false, []⟩, none, none⟩))) = some true := by decide +kernel
/-! `UriCompose.AbsolutePath` -/
example : compose (Parts.map v ⟨none, none, ⟨true, [b! "a", b! "b", []]⟩, none, none⟩) = b! "/a/b/" := by decide +kernel
example : ((splitReference pl (v (b! "/a/b/"))).toOption.join.map (Parts.eq · (Parts.map v ⟨none, none, ⟨true, [b! "a", b! "b", []]⟩, none, none⟩))) = some true := by decide +kernel
/-! `UriCompose.RelativePath` -/
example : compose (Parts.map v ⟨none, none, ⟨false, [b! "a", b! "b", []]⟩, none, none⟩) = b! "a/b/" := by decide +kernel
example : ((splitReference pl (v (b! "a/b/"))).toOption.join.map (Parts.eq · (Parts.map v ⟨none, none, ⟨false, [b! "a", b! "b", []]⟩, none, none⟩))) = some true := by decide +kernel
/-! `UriCompose.Query` -/
example : compose (Parts.map v ⟨none, none, ⟨false, []⟩, some (b! "query"), none⟩) = b! "?query" := by decide +kernel
example : ((splitReference pl (v (b! "?query"))).toOption.join.map (Parts.eq · (Parts.map v ⟨none, none, ⟨false, []⟩, some (b! "query"), none⟩))) = some true := by decide +kernel
/-! `UriCompose.Fragment` -/
example : compose (Parts.map v ⟨none, none, ⟨false, []⟩, none, some (b! "fragment")⟩) = b! "#fragment" := by decide +kernel
example : ((splitReference pl (v (b! "#fragment"))).toOption.join.map (Parts.eq · (Parts.map v ⟨none, none, ⟨false, []⟩, none, some (b! "fragment")⟩))) = some true := by decide +kernel
/-! `UriCompose.EmptyStrings` -/
example : ((splitReference pl (v (compose (Parts.map v ⟨none, some ⟨some ([]), b! "foo.com", some ([])⟩, ⟨false, [b! "segment"]⟩, some ([]), some ([])⟩)))).toOption.join.map (Parts.eq (Parts.map v ⟨none, some ⟨some ([]), b! "foo.com", some ([])⟩, ⟨false, [b! "segment"]⟩, some ([]), some ([])⟩) ·)) = some true := by decide +kernel
/-! `PartsValid.SchemeEmpty` -/
example : (Parts.valid pl (Parts.map v ⟨none, none, ⟨false, []⟩, none, none⟩)).toOption = some false := by decide +kernel
/-! `PartsValid.SchemeSimple` -/
example : (Parts.valid pl (Parts.map v ⟨some (b! "scheme"), none, ⟨false, []⟩, none, none⟩)).toOption = some true := by decide +kernel
/-! `PartsValid.SchemeLeadingDigit` -/
example : (Parts.valid pl (Parts.map v ⟨some (b! "123"), none, ⟨false, []⟩, none, none⟩)).toOption = some false := by decide +kernel
/-! `PartsValid.SchemeMixedCharacters` -/
example : (Parts.valid pl (Parts.map v ⟨some (b! "a+123"), none, ⟨false, []⟩, none, none⟩)).toOption = some true := by decide +kernel
/-! `PartsValid.AuthorityUserinfo` -/
example : (Parts.valid pl (Parts.map v ⟨some (b! "scheme"), some ⟨some (b! "userinfo"), b! "host", none⟩, ⟨false, []⟩, none, none⟩)).toOption = some true := by decide +kernel
example : (split pl (v (compose (Parts.map v ⟨some (b! "scheme"), some ⟨some (b! "userinfo"), b! "host", none⟩, ⟨false, []⟩, none, none⟩)))).toOption.map Option.isSome = (Parts.valid pl (Parts.map v ⟨some (b! "scheme"), some ⟨some (b! "userinfo"), b! "host", none⟩, ⟨false, []⟩, none, none⟩)).toOption := by decide +kernel

end Verif.Tests
