import Verif.Props.Punycode

/-!
# The project's own unit tests, run on the model: `unittests/uri/test_punycode.cpp`

Generated by `tools/gen_conformance.py`.  Tests of the model, not proofs of properties: each `example` evaluates the model on the
input of an assertion of the project's test suite and compares with the value expected there.
-/

namespace Verif.Tests

/-- Decode successfully, with nothing left. -/
def punyDec (s : Str) : Option (Except Puny.Err (List Nat × Str)) := (Puny.decode true s).toOption


/-- `std::tolower` of the C locale. -/
def toLowerA (c : UInt8) : UInt8 := if 0x41 ≤ c ∧ c ≤ 0x5A then c + 0x20 else c

/-! `Punycode.Empty` -/
example : (Puny.encode [] false).toOption.map Prod.fst = some ([]) := by decide +kernel
example : (match punyDec ([]) with | some (.ok r) => decide (r = ([], [])) | _ => false) = true := by decide +kernel
/-! `Punycode.AsciiNoPlain` -/
example : (Puny.encode [65, 98] false).toOption.map Prod.fst = some (b! "Ab-") := by decide +kernel
example : (match punyDec (b! "Ab-") with | some (.ok r) => decide (r = ([65, 98], [])) | _ => false) = true := by decide +kernel
/-! `Punycode.AsciiWithPlainAllowed` -/
example : (Puny.encode [65, 98] true).toOption.map Prod.fst = some (b! "Ab") := by decide +kernel
/-! `Punycode.Delimiter` -/
example : (Puny.encode [44, 45, 7104] false).toOption.map Prod.fst = some (b! ",--9cr") := by decide +kernel
example : (match punyDec (b! ",--9cr") with | some (.ok r) => decide (r = ([44, 45, 7104], [])) | _ => false) = true := by decide +kernel
/-! `Punycode.DecodeDelimiterCaps` -/
example : (match punyDec (b! ",--9CR") with | some (.ok r) => decide (r = ([44, 45, 7104], [])) | _ => false) = true := by decide +kernel
/-! `Punycode.ArabicEgyptian` -/
example : (Puny.encode [1604, 1610, 1607, 1605, 1575, 1576, 1578, 1603, 1604, 1605, 1608, 1588, 1593, 1585, 1576, 1610, 1567] false).toOption.map Prod.fst = some (b! "egbpdaj6bu4bxfgehfvwxn") := by decide +kernel
example : (match punyDec (b! "egbpdaj6bu4bxfgehfvwxn") with | some (.ok r) => decide (r = ([1604, 1610, 1607, 1605, 1575, 1576, 1578, 1603, 1604, 1605, 1608, 1588, 1593, 1585, 1576, 1610, 1567], [])) | _ => false) = true := by decide +kernel
/-! `Punycode.ChineseSimplified` -/
example : (Puny.encode [20182, 20204, 20026, 20160, 20040, 19981, 35828, 20013, 25991] false).toOption.map Prod.fst = some (b! "ihqwcrb4cv8a8dqg056pqjye") := by decide +kernel
example : (match punyDec (b! "ihqwcrb4cv8a8dqg056pqjye") with | some (.ok r) => decide (r = ([20182, 20204, 20026, 20160, 20040, 19981, 35828, 20013, 25991], [])) | _ => false) = true := by decide +kernel
/-! `Punycode.ChineseTraditional` -/
example : (match punyDec (b! "ihqwctvzc91f659drss3x8bo0yb") with | some (.ok r) => decide (r = ([20182, 20497, 29234, 20160, 40637, 19981, 35498, 20013, 25991], [])) | _ => false) = true := by decide +kernel
/-! `Punycode.Czech` -/
example : (Puny.encode [80, 114, 111, 269, 112, 114, 111, 115, 116, 283, 110, 101, 109, 108, 117, 118, 237, 269, 101, 115, 107, 121] false).toOption.map Prod.fst = some (b! "Proprostnemluvesky-uyb24dma41a") := by decide +kernel
example : (match punyDec (b! "Proprostnemluvesky-uyb24dma41a") with | some (.ok r) => decide (r = ([80, 114, 111, 269, 112, 114, 111, 115, 116, 283, 110, 101, 109, 108, 117, 118, 237, 269, 101, 115, 107, 121], [])) | _ => false) = true := by decide +kernel
/-! `Punycode.Hebrew` -/
example : (Puny.encode [1500, 1502, 1492, 1492, 1501, 1508, 1513, 1493, 1496, 1500, 1488, 1502, 1491, 1489, 1512, 1497, 1501, 1506, 1489, 1512, 1497, 1514] false).toOption.map Prod.fst = some (b! "4dbcagdahymbxekheh6e0a7fei0b") := by decide +kernel
example : (match punyDec (b! "4dbcagdahymbxekheh6e0a7fei0b") with | some (.ok r) => decide (r = ([1500, 1502, 1492, 1492, 1501, 1508, 1513, 1493, 1496, 1500, 1488, 1502, 1491, 1489, 1512, 1497, 1501, 1506, 1489, 1512, 1497, 1514], [])) | _ => false) = true := by decide +kernel
/-! `Punycode.HindiDevanagari` -/
example : (Puny.encode [2351, 2361, 2354, 2379, 2327, 2361, 2367, 2344, 2381, 2342, 2368, 2325, 2381, 2351, 2379, 2306, 2344, 2361, 2368, 2306, 2348, 2379, 2354, 2360, 2325, 2340, 2375, 2361, 2376, 2306] false).toOption.map Prod.fst = some (b! "i1baa7eci9glrd9b2ae1bj0hfcgg6iyaf8o0a1dig0cd") := by decide +kernel
example : (match punyDec (b! "i1baa7eci9glrd9b2ae1bj0hfcgg6iyaf8o0a1dig0cd") with | some (.ok r) => decide (r = ([2351, 2361, 2354, 2379, 2327, 2361, 2367, 2344, 2381, 2342, 2368, 2325, 2381, 2351, 2379, 2306, 2344, 2361, 2368, 2306, 2348, 2379, 2354, 2360, 2325, 2340, 2375, 2361, 2376, 2306], [])) | _ => false) = true := by decide +kernel
/-! `Punycode.JapaneseKanjiAndHiragana` -/
example : (Puny.encode [12394, 12380, 12415, 12435, 12394, 26085, 26412, 35486, 12434, 35441, 12375, 12390, 12367, 12428, 12394, 12356, 12398, 12363] false).toOption.map Prod.fst = some (b! "n8jok5ay5dzabd5bym9f0cm5685rrjetr6pdxa") := by decide +kernel
example : (match punyDec (b! "n8jok5ay5dzabd5bym9f0cm5685rrjetr6pdxa") with | some (.ok r) => decide (r = ([12394, 12380, 12415, 12435, 12394, 26085, 26412, 35486, 12434, 35441, 12375, 12390, 12367, 12428, 12394, 12356, 12398, 12363], [])) | _ => false) = true := by decide +kernel
/-! `Punycode.KoreanHangulSyllables` -/
example : (Puny.encode [49464, 44228, 51032, 47784, 46304, 49324, 46988, 46308, 51060, 54620, 44397, 50612, 47484, 51060, 54644, 54620, 45796, 47732, 50620, 47560, 45208, 51339, 51012, 44620] false).toOption.map Prod.fst = some (b! "989aomsvi5e83db1d2a355cv1e0vak1dwrv93d5xbh15a0dt30a5jpsd879ccm6fea98c") := by decide +kernel
example : (match punyDec (b! "989aomsvi5e83db1d2a355cv1e0vak1dwrv93d5xbh15a0dt30a5jpsd879ccm6fea98c") with | some (.ok r) => decide (r = ([49464, 44228, 51032, 47784, 46304, 49324, 46988, 46308, 51060, 54620, 44397, 50612, 47484, 51060, 54644, 54620, 45796, 47732, 50620, 47560, 45208, 51339, 51012, 44620], [])) | _ => false) = true := by decide +kernel
/-! `Punycode.RussianCyrillic` -/
example : (Puny.encode [1087, 1086, 1095, 1077, 1084, 1091, 1078, 1077, 1086, 1085, 1080, 1085, 1077, 1075, 1086, 1074, 1086, 1088, 1103, 1090, 1087, 1086, 1088, 1091, 1089, 1089, 1082, 1080] false).toOption.map Prod.fst = some (b! "b1abfaaepdrnnbgefbadotcwatmq2g4l") := by decide +kernel
example : (match punyDec (b! "b1abfaaepdrnnbgefbadotcwatmq2g4l") with | some (.ok r) => decide (r = ([1087, 1086, 1095, 1077, 1084, 1091, 1078, 1077, 1086, 1085, 1080, 1085, 1077, 1075, 1086, 1074, 1086, 1088, 1103, 1090, 1087, 1086, 1088, 1091, 1089, 1089, 1082, 1080], [])) | _ => false) = true := by decide +kernel
/-! `Punycode.Spanish` -/
example : (Puny.encode [80, 111, 114, 113, 117, 233, 110, 111, 112, 117, 101, 100, 101, 110, 115, 105, 109, 112, 108, 101, 109, 101, 110, 116, 101, 104, 97, 98, 108, 97, 114, 101, 110, 69, 115, 112, 97, 241, 111, 108] false).toOption.map Prod.fst = some (b! "PorqunopuedensimplementehablarenEspaol-fmd56a") := by decide +kernel
example : (match punyDec (b! "PorqunopuedensimplementehablarenEspaol-fmd56a") with | some (.ok r) => decide (r = ([80, 111, 114, 113, 117, 233, 110, 111, 112, 117, 101, 100, 101, 110, 115, 105, 109, 112, 108, 101, 109, 101, 110, 116, 101, 104, 97, 98, 108, 97, 114, 101, 110, 69, 115, 112, 97, 241, 111, 108], [])) | _ => false) = true := by decide +kernel
/-! `Punycode.Vietnamese` -/
example : (Puny.encode [84, 7841, 105, 115, 97, 111, 104, 7885, 107, 104, 244, 110, 103, 116, 104, 7875, 99, 104, 7881, 110, 243, 105, 116, 105, 7871, 110, 103, 86, 105, 7879, 116] false).toOption.map Prod.fst = some (b! "TisaohkhngthchnitingVit-kjcr8268qyxafd2f1b9g") := by decide +kernel
example : (match punyDec (b! "TisaohkhngthchnitingVit-kjcr8268qyxafd2f1b9g") with | some (.ok r) => decide (r = ([84, 7841, 105, 115, 97, 111, 104, 7885, 107, 104, 244, 110, 103, 116, 104, 7875, 99, 104, 7881, 110, 243, 105, 116, 105, 7871, 110, 103, 86, 105, 7879, 116], [])) | _ => false) = true := by decide +kernel
/-! `Punycode.ExampleL` -/
example : (Puny.encode [51, 24180, 66, 32068, 37329, 20843, 20808, 29983] false).toOption.map Prod.fst = some (b! "3B-ww4c5e180e575a65lsy2b") := by decide +kernel
example : (match punyDec (b! "3B-ww4c5e180e575a65lsy2b") with | some (.ok r) => decide (r = ([51, 24180, 66, 32068, 37329, 20843, 20808, 29983], [])) | _ => false) = true := by decide +kernel
/-! `Punycode.ExampleM` -/
example : (Puny.encode [23433, 23460, 22856, 32654, 24693, 45, 119, 105, 116, 104, 45, 83, 85, 80, 69, 82, 45, 77, 79, 78, 75, 69, 89, 83] false).toOption.map Prod.fst = some (b! "-with-SUPER-MONKEYS-pc58ag80a8qai00g7n9n") := by decide +kernel
example : (match punyDec (b! "-with-SUPER-MONKEYS-pc58ag80a8qai00g7n9n") with | some (.ok r) => decide (r = ([23433, 23460, 22856, 32654, 24693, 45, 119, 105, 116, 104, 45, 83, 85, 80, 69, 82, 45, 77, 79, 78, 75, 69, 89, 83], [])) | _ => false) = true := by decide +kernel
/-! `Punycode.ExampleN` -/
example : (Puny.encode [72, 101, 108, 108, 111, 45, 65, 110, 111, 116, 104, 101, 114, 45, 87, 97, 121, 45, 12381, 12428, 12382, 12428, 12398, 22580, 25152] false).toOption.map Prod.fst = some (b! "Hello-Another-Way--fc4qua05auwb3674vfr0b") := by decide +kernel
example : (match punyDec (b! "Hello-Another-Way--fc4qua05auwb3674vfr0b") with | some (.ok r) => decide (r = ([72, 101, 108, 108, 111, 45, 65, 110, 111, 116, 104, 101, 114, 45, 87, 97, 121, 45, 12381, 12428, 12382, 12428, 12398, 22580, 25152], [])) | _ => false) = true := by decide +kernel
/-! `Punycode.ExampleO` -/
example : (Puny.encode [12402, 12392, 12388, 23627, 26681, 12398, 19979, 50] false).toOption.map Prod.fst = some (b! "2-u9tlzr9756bt3uc0v") := by decide +kernel
example : (match punyDec (b! "2-u9tlzr9756bt3uc0v") with | some (.ok r) => decide (r = ([12402, 12392, 12388, 23627, 26681, 12398, 19979, 50], [])) | _ => false) = true := by decide +kernel
/-! `Punycode.ExampleP` -/
example : (Puny.encode [77, 97, 106, 105, 12391, 75, 111, 105, 12377, 12427, 53, 31186, 21069] false).toOption.map Prod.fst = some (b! "MajiKoi5-783gue6qz075azm5e") := by decide +kernel
example : (match punyDec (b! "MajiKoi5-783gue6qz075azm5e") with | some (.ok r) => decide (r = ([77, 97, 106, 105, 12391, 75, 111, 105, 12377, 12427, 53, 31186, 21069], [])) | _ => false) = true := by decide +kernel
/-! `Punycode.ExampleQ` -/
example : (Puny.encode [12497, 12501, 12451, 12540, 100, 101, 12523, 12531, 12496] false).toOption.map Prod.fst = some (b! "de-jg4avhby1noc0d") := by decide +kernel
example : (match punyDec (b! "de-jg4avhby1noc0d") with | some (.ok r) => decide (r = ([12497, 12501, 12451, 12540, 100, 101, 12523, 12531, 12496], [])) | _ => false) = true := by decide +kernel
/-! `Punycode.ExampleR` -/
example : (Puny.encode [12381, 12398, 12473, 12500, 12540, 12489, 12391] false).toOption = some (b! "d9juau41awczczp", true) := by decide +kernel
example : (match punyDec (b! "d9juau41awczczp") with | some (.ok r) => decide (r = ([12381, 12398, 12473, 12500, 12540, 12489, 12391], [])) | _ => false) = true := by decide +kernel
/-! `Punycode.ExampleS` -/
example : (Puny.encode [45, 62, 32, 36, 49, 46, 48, 48, 32, 60, 45] false).toOption = some (b! "-> $1.00 <--", false) := by decide +kernel
example : (match punyDec (b! "-> $1.00 <--") with | some (.ok r) => decide (r = ([45, 62, 32, 36, 49, 46, 48, 48, 32, 60, 45], [])) | _ => false) = true := by decide +kernel
/-! `Punycode.BadInput` -/
example : (punyDec (b! "eg{|}") matches some (.error .badInput)) = true := by decide +kernel
/-! `Punycode.BadInputInPlainAsciiPart` -/
example : (punyDec ([0x80, 0x2D, 0x65, 0x67]) matches some (.error .badInput)) = true := by decide +kernel
/-! `Punycode.DecodeEncodeRoundTripEmpty` -/
example : (match punyDec ([]) with | some (.ok (cs, _)) => ((Puny.encode cs false).toOption.map fun r => (r.1.take 0 == ([] : Str).take 0, r.1.length == 0, (r.1.drop 0).map toLowerA == (([] : Str).drop 0).map toLowerA)) | _ => some (true, true, true)) = some (true, true, true) := by decide +kernel
/-! `Punycode.DecodeEncodeRoundTripDash` -/
example : (match punyDec ([]) with | some (.ok (cs, _)) => ((Puny.encode cs false).toOption.map fun r => (r.1.take 0 == ([] : Str).take 0, r.1.length == 0, (r.1.drop 0).map toLowerA == (([] : Str).drop 0).map toLowerA)) | _ => some (true, true, true)) = some (true, true, true) := by decide +kernel
/-! `Punycode.DecodeEncodeRoundTripLeadingDelimiter` -/
example : (match punyDec (b! "Ssu") with | some (.ok (cs, _)) => ((Puny.encode cs false).toOption.map fun r => (r.1.take 0 == (b! "Ssu" : Str).take 0, r.1.length == 3, (r.1.drop 0).map toLowerA == ((b! "Ssu" : Str).drop 0).map toLowerA)) | _ => some (true, true, true)) = some (true, true, true) := by decide +kernel
/-! `Punycode.DecodeEncodeRoundTripTrailingDelimiter` -/
example : (match punyDec (b! "hello-") with | some (.ok (cs, _)) => ((Puny.encode cs false).toOption.map fun r => (r.1.take 5 == (b! "hello-" : Str).take 5, r.1.length == 6, (r.1.drop 5).map toLowerA == ((b! "hello-" : Str).drop 5).map toLowerA)) | _ => some (true, true, true)) = some (true, true, true) := by decide +kernel

end Verif.Tests
