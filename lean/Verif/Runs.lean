import Verif.ModelRuns

/-!
# The recorded runs of the project's own tests

/repo/test/unittests_ITF1788 holds 1272 tests of the library against the IEEE 1788 test vectors, and
test_results.txt in the same directory is the record of a run of all of them: 789 passed, 161 failed and 322 raised.
1262 of them concern functions of the binary64 model: arithmetic, negation, absolute value, endpoints, `wid`, `rad`,
`mid`, `mag`, `mig`, `intersection` and the elementary functions.  For each the model gives what the record says: equal to the expected
value, or different and shown as in the message of the failed test, or the recorded exception.

Not covered: five tests applied to `None` and five of a convex hull that is defined in the test itself.

The values of `exp`, `log`, `sin` and `cos` are the correctly rounded ones (`log` in the active mode), so the runs also
support what `SpecElem` assumes about the C library.

The lists are generated from the text of the tests; the numbers in front are lines of the test file.
-/

set_option autoImplicit false

namespace IntvalPy
namespace Runs

/-- Correctly rounded values of `math.exp` in the mode to nearest at the arguments of the tests. -/
def expTable : Table :=
  [(bin (-3740158532571577) 50, .ok (bin 162504253742035 52)),
   (bin 4069801476752429 51, .ok (bin 1715394689901937 48)),
   (bin (-6231120794008787) 44, .ok (bin 2251799813685151 562)),
   (whole 0 0, .ok (whole 1 0)),
   (whole 1 0, .ok (bin 6121026514868073 51)),
   (bin 195103586505167 38, .ok (whole 4503599627362709 972)),
   (bin (-6231120794008787) 43, .ok (bin 1125899906842527 1072)),
   (bin 390207173010335 39, .error .overflowError),
   (bin 1723830999229735 51, .ok (bin 2420846759166101 50)),
   (bin 6954774044934185 46, .ok (whole 6761609032638901 90)),
   (whole 5 0, .ok (bin 5221823812744079 45)),
   (bin 6614824233729337 49, .ok (bin 2178237390177363 34)),
   (bin 7315664758876059 48, .ok (bin 1588196682678307 13)),
   (bin (-5184960683398421) 52, .ok (bin 356040812299409 50)),
   (bin 1812065995678541 50, .ok (bin 5629499534213121 50)),
   (bin (-2592480341699211) 51, .ok (bin 2848326498395271 53)),
   (bin 195103586505167 49, .ok (bin 6369051672525767 52)),
   (bin 390207173010335 49, .ok (whole 2 0))]

/-- Correctly rounded values of `math.sin` in the mode to nearest at the arguments of the tests. -/
def sinTable : Table :=
  [(bin (-3152519739159347) 52, .ok (bin (-725324634047287) 50)),
   (bin 3602879701896397 55, .ok (bin 1798438952039115 54)),
   (bin (-884279719003555) 49, .ok (whole (-1) 0)),
   (whole 0 0, .ok (whole 0 0)),
   (bin 884279719003555 49, .ok (whole 1 0)),
   (bin 7074237752028441 52, .ok (whole 1 0)),
   (bin (-7074237752028441) 52, .ok (whole (-1) 0)),
   (bin (-884279719003555) 48, .ok (bin (-4967757600021511) 105)),
   (bin (-7074237752028441) 51, .ok (bin 6523320454730237 104)),
   (bin (-3602879701896397) 50, .ok (bin 4206300329416345 56)),
   (bin (-6530219459687219) 51, .ok (bin (-8619865519173859) 55)),
   (bin 884279719003555 48, .ok (bin 4967757600021511 105)),
   (bin 7074237752028441 51, .ok (bin (-6523320454730237) 104)),
   (whole 1 0, .ok (bin 3789648413623927 52)),
   (whole 2 0, .ok (bin 4095111552621091 52)),
   (whole 3 0, .ok (bin 5084384125703515 55))]

/-- Correctly rounded values of `math.cos` in the mode to nearest at the arguments of the tests. -/
def cosTable : Table :=
  [(bin (-3152519739159347) 52, .ok (bin 6889085979303315 53)),
   (bin 3602879701896397 55, .ok (bin 8962200775956417 53)),
   (bin (-884279719003555) 49, .ok (bin 4967757600021511 106)),
   (whole 0 0, .ok (whole 1 0)),
   (bin 884279719003555 49, .ok (bin 4967757600021511 106)),
   (bin 7074237752028441 52, .ok (bin (-6523320454730237) 105)),
   (bin (-7074237752028441) 52, .ok (bin (-6523320454730237) 105)),
   (bin (-884279719003555) 48, .ok (whole (-1) 0)),
   (bin (-7074237752028441) 51, .ok (whole (-1) 0)),
   (bin (-3602879701896397) 50, .ok (bin (-4495919980275163) 52)),
   (bin (-6530219459687219) 51, .ok (bin (-8745613661520073) 53)),
   (bin 884279719003555 48, .ok (whole (-1) 0)),
   (bin 7074237752028441 51, .ok (whole (-1) 0)),
   (whole 1 0, .ok (bin 1216652631687587 51)),
   (whole 2 0, .ok (bin (-7496634952020485) 54)),
   (whole 3 0, .ok (bin (-4458529838789353) 52))]

/-- Correctly rounded values of `math.log` rounded down at the arguments of the tests. -/
def logDownTable : Table :=
  [(bin 3602879701896397 55, .ok (bin (-2592480341699211) 50)),
   (whole 1 0, .ok (whole 0 0)),
   (bin 7656119366529843 52, .ok (bin 298717149219481 49)),
   (bin 6121026514868073 51, .ok (bin 9007199254740991 53)),
   (bin 3060513257434037 50, .ok (whole 1 0)),
   (bin 7575635122853985 41, .ok (bin 4585046767509091 49)),
   (bin 1 1074, .ok (bin (-1637041030519921) 41))]

/-- Correctly rounded values of `math.log` rounded up at the arguments of the tests. -/
def logUpTable : Table :=
  [(whole 1 0, .ok (whole 0 0)),
   (whole 9007199254740991 971, .ok (bin 390207173010335 39)),
   (bin 7 1, .ok (bin 176310713690603 47)),
   (whole 8024225258572591 46, .ok (bin 4820682020677617 46)),
   (bin 6121026514868073 51, .ok (whole 1 0)),
   (whole 32 0, .ok (bin 1951035865051675 49)),
   (bin 3060513257434037 50, .ok (bin 4503599627370497 52)),
   (bin 2236962133333331 25, .ok (bin 5070832401536693 48)),
   (bin 3602879701896397 55, .ok (bin (-5184960683398421) 51)),
   (whole 25 0, .ok (bin 1812065995678541 49)),
   (bin 562949953421311 48, .ok (bin 195103586505167 48)),
   (whole 4 0, .ok (bin 390207173010335 48))]

/-- The C library of the runs. -/
def libm : Libm := tableLibm expTable logDownTable logUpTable sinTable cosTable

/-- fi_lib.py, `TestCase_FI_LIB_addii`. -/
def fi_addii : List Run :=
  [⟨56, .add (whole 0 0, whole 0 0) (whole 0 0, whole 0 0), .iv (whole 0 0, whole 0 0), .ok⟩,
   ⟨74, .add (whole 9007199254740991 971, whole 9007199254740991 971) (whole (-1) 0, whole (-1) 0), .iv (whole 4503599627370495 972, whole 9007199254740991 971), .ok⟩,
   ⟨76, .add (whole (-9007199254740991) 971, whole (-9007199254740991) 971) (whole 1 0, whole 1 0), .iv (whole (-9007199254740991) 971, whole (-4503599627370495) 972), .ok⟩,
   ⟨78, .add (whole 0 0, whole 1 0) (whole 1 0, whole 2 0), .iv (whole 1 0, whole 3 0), .ok⟩,
   ⟨80, .add (whole 1 0, whole 2 0) (whole 0 0, whole 1 0), .iv (whole 1 0, whole 3 0), .ok⟩,
   ⟨82, .add (whole 1 0, whole 2 0) (whole 3 0, whole 4 0), .iv (whole 4 0, whole 6 0), .ok⟩,
   ⟨84, .add (whole 3 0, whole 4 0) (whole 1 0, whole 2 0), .iv (whole 4 0, whole 6 0), .ok⟩,
   ⟨86, .add (whole (-1) 0, whole 0 0) (whole (-4) 0, whole (-3) 0), .iv (whole (-5) 0, whole (-3) 0), .ok⟩,
   ⟨88, .add (whole (-4) 0, whole (-3) 0) (whole (-1) 0, whole 0 0), .iv (whole (-5) 0, whole (-3) 0), .ok⟩,
   ⟨90, .add (whole (-5) 0, whole (-4) 0) (whole 4 0, whole 5 0), .iv (whole (-1) 0, whole 1 0), .ok⟩,
   ⟨92, .add (whole 4 0, whole 5 0) (whole (-5) 0, whole (-4) 0), .iv (whole (-1) 0, whole 1 0), .ok⟩,
   ⟨58, .add (whole 1 0, whole 1 0) (whole 2 0, whole 2 0), .iv (whole 3 0, whole 3 0), .ok⟩,
   ⟨60, .add (whole (-1) 0, whole (-1) 0) (whole (-2) 0, whole (-2) 0), .iv (whole (-3) 0, whole (-3) 0), .ok⟩,
   ⟨62, .add (whole 1 0, whole 1 0) (whole (-1) 0, whole (-1) 0), .iv (whole 0 0, whole 0 0), .ok⟩,
   ⟨64, .add (whole (-1) 0, whole (-1) 0) (whole 1 0, whole 1 0), .iv (whole 0 0, whole 0 0), .ok⟩,
   ⟨66, .add (bin 253 1071, bin 253 1071) (bin 253 1071, bin 253 1071), .iv (bin 253 1070, bin 253 1070), .ok⟩,
   ⟨68, .add (bin 253 1071, bin 253 1071) (whole 1 0, whole 1 0), .iv (whole 1 0, bin 4503599627370497 52), .ok⟩,
   ⟨70, .add (bin (-253) 1071, bin (-253) 1071) (bin (-253) 1071, bin (-253) 1071), .iv (bin (-253) 1070, bin (-253) 1070), .ok⟩,
   ⟨72, .add (bin (-253) 1071, bin (-253) 1071) (whole 1 0, whole 1 0), .iv (bin 9007199254740991 53, whole 1 0), .ok⟩]

theorem fi_addii_agree : ∀ r ∈ fi_addii, r.agrees libm = true := by decide +kernel

/-- fi_lib.py, `TestCase_FI_LIB_divii`. -/
def fi_divii : List Run :=
  [⟨266, .div (whole 2 0, whole 3 0) (whole (-3) 0, whole (-2) 0), .iv (bin (-3) 1, bin (-6004799503160661) 53), .ok⟩,
   ⟨268, .div (whole 2 0, whole 3 0) (whole 2 0, whole 3 0), .iv (bin 6004799503160661 53, bin 3 1), .ok⟩,
   ⟨270, .div (whole (-3) 0, whole 0 0) (whole (-3) 0, whole (-2) 0), .iv (whole 0 0, bin 3 1), .ok⟩,
   ⟨272, .div (whole (-3) 0, whole 0 0) (whole 2 0, whole 3 0), .iv (bin (-3) 1, whole 0 0), .ok⟩,
   ⟨274, .div (whole 0 0, whole 3 0) (whole (-3) 0, whole (-2) 0), .iv (bin (-3) 1, whole 0 0), .ok⟩,
   ⟨276, .div (whole 0 0, whole 3 0) (whole 2 0, whole 3 0), .iv (whole 0 0, bin 3 1), .ok⟩,
   ⟨236, .div (whole (-1) 0, whole (-1) 0) (whole (-1) 0, whole (-1) 0), .iv (whole 1 0, whole 1 0), .ok⟩,
   ⟨238, .div (whole (-1) 0, whole (-1) 0) (whole 1 0, whole 1 0), .iv (whole (-1) 0, whole (-1) 0), .ok⟩,
   ⟨240, .div (whole 0 0, whole 0 0) (whole (-1) 0, whole (-1) 0), .iv (whole 0 0, whole 0 0), .ok⟩,
   ⟨242, .div (whole 0 0, whole 0 0) (whole 1 0, whole 1 0), .iv (whole 0 0, whole 0 0), .ok⟩,
   ⟨244, .div (whole 1 0, whole 1 0) (whole (-1) 0, whole (-1) 0), .iv (whole (-1) 0, whole (-1) 0), .ok⟩,
   ⟨246, .div (whole 1 0, whole 1 0) (whole 1 0, whole 1 0), .iv (whole 1 0, whole 1 0), .ok⟩,
   ⟨248, .div (whole 9007199254740991 971, whole 9007199254740991 971) (whole 2 0, whole 2 0), .iv (whole 9007199254740991 970, whole 9007199254740991 970), .ok⟩,
   ⟨250, .div (whole (-9007199254740991) 971, whole (-9007199254740991) 971) (whole 2 0, whole 2 0), .iv (whole (-9007199254740991) 970, whole (-9007199254740991) 970), .ok⟩,
   ⟨252, .div (bin 253 1071, bin 253 1071) (bin 253 1071, bin 253 1071), .iv (whole 1 0, whole 1 0), .ok⟩,
   ⟨254, .div (bin 253 1071, bin 253 1071) (whole 1 0, whole 1 0), .iv (bin 253 1071, bin 253 1071), .ok⟩,
   ⟨256, .div (bin 253 1071, bin 253 1071) (whole (-1) 0, whole (-1) 0), .iv (bin (-253) 1071, bin (-253) 1071), .ok⟩,
   ⟨258, .div (whole (-3) 0, whole (-2) 0) (whole (-3) 0, whole (-2) 0), .iv (bin 6004799503160661 53, bin 3 1), .ok⟩,
   ⟨260, .div (whole (-3) 0, whole (-2) 0) (whole 2 0, whole 3 0), .iv (bin (-3) 1, bin (-6004799503160661) 53), .ok⟩,
   ⟨262, .div (whole (-1) 0, whole 1 0) (whole (-3) 0, whole (-2) 0), .iv (bin (-1) 1, bin 1 1), .ok⟩,
   ⟨264, .div (whole (-1) 0, whole 1 0) (whole 2 0, whole 3 0), .iv (bin (-1) 1, bin 1 1), .ok⟩]

theorem fi_divii_agree : ∀ r ∈ fi_divii, r.agrees libm = true := by decide +kernel

/-- fi_lib.py, `TestCase_FI_LIB_mulii`. -/
def fi_mulii : List Run :=
  [⟨140, .mul (whole 0 0, whole 0 0) (whole 0 0, whole 0 0), .iv (whole 0 0, whole 0 0), .ok⟩,
   ⟨142, .mul (whole (-1) 0, whole (-1) 0) (whole (-1) 0, whole (-1) 0), .iv (whole 1 0, whole 1 0), .ok⟩,
   ⟨144, .mul (whole (-1) 0, whole (-1) 0) (whole 0 0, whole 0 0), .iv (whole 0 0, whole 0 0), .ok⟩,
   ⟨146, .mul (whole (-1) 0, whole (-1) 0) (whole 1 0, whole 1 0), .iv (whole (-1) 0, whole (-1) 0), .ok⟩,
   ⟨148, .mul (whole 0 0, whole 0 0) (whole (-1) 0, whole (-1) 0), .iv (whole 0 0, whole 0 0), .ok⟩,
   ⟨150, .mul (whole 0 0, whole 0 0) (whole 1 0, whole 1 0), .iv (whole 0 0, whole 0 0), .ok⟩,
   ⟨152, .mul (whole 1 0, whole 1 0) (whole (-1) 0, whole (-1) 0), .iv (whole (-1) 0, whole (-1) 0), .ok⟩,
   ⟨154, .mul (whole 1 0, whole 1 0) (whole 0 0, whole 0 0), .iv (whole 0 0, whole 0 0), .ok⟩,
   ⟨156, .mul (whole 1 0, whole 1 0) (whole 1 0, whole 1 0), .iv (whole 1 0, whole 1 0), .ok⟩,
   ⟨158, .mul (whole 9007199254740991 971, whole 9007199254740991 971) (bin 1 1, bin 1 1), .iv (whole 9007199254740991 970, whole 9007199254740991 970), .ok⟩,
   ⟨160, .mul (whole (-9007199254740991) 971, whole (-9007199254740991) 971) (bin 1 1, bin 1 1), .iv (whole (-9007199254740991) 970, whole (-9007199254740991) 970), .ok⟩,
   ⟨162, .mul (bin 253 1071, bin 253 1071) (bin 253 1071, bin 253 1071), .iv (whole 0 0, bin 1 1074), .ok⟩,
   ⟨164, .mul (bin 253 1071, bin 253 1071) (whole 1 0, whole 1 0), .iv (bin 253 1071, bin 253 1071), .ok⟩,
   ⟨166, .mul (bin 253 1071, bin 253 1071) (whole (-1) 0, whole (-1) 0), .iv (bin (-253) 1071, bin (-253) 1071), .ok⟩,
   ⟨168, .mul (whole (-3) 0, whole (-2) 0) (whole (-3) 0, whole (-2) 0), .iv (whole 4 0, whole 9 0), .ok⟩,
   ⟨170, .mul (whole (-3) 0, whole (-2) 0) (whole (-1) 0, whole 1 0), .iv (whole (-3) 0, whole 3 0), .ok⟩,
   ⟨172, .mul (whole (-3) 0, whole (-2) 0) (whole 2 0, whole 3 0), .iv (whole (-9) 0, whole (-4) 0), .ok⟩,
   ⟨174, .mul (whole (-1) 0, whole 1 0) (whole (-3) 0, whole (-2) 0), .iv (whole (-3) 0, whole 3 0), .ok⟩,
   ⟨176, .mul (whole (-1) 0, whole 1 0) (whole (-1) 0, whole 1 0), .iv (whole (-1) 0, whole 1 0), .ok⟩,
   ⟨178, .mul (whole (-1) 0, whole 1 0) (whole 2 0, whole 3 0), .iv (whole (-3) 0, whole 3 0), .ok⟩,
   ⟨180, .mul (whole 2 0, whole 3 0) (whole (-3) 0, whole (-2) 0), .iv (whole (-9) 0, whole (-4) 0), .ok⟩,
   ⟨182, .mul (whole 2 0, whole 3 0) (whole (-1) 0, whole 1 0), .iv (whole (-3) 0, whole 3 0), .ok⟩,
   ⟨184, .mul (whole 2 0, whole 3 0) (whole 2 0, whole 3 0), .iv (whole 4 0, whole 9 0), .ok⟩,
   ⟨186, .mul (whole (-5) 0, whole 2 0) (whole (-4) 0, whole 3 0), .iv (whole (-15) 0, whole 20 0), .ok⟩,
   ⟨188, .mul (whole (-5) 0, whole 2 0) (whole (-3) 0, whole 8 0), .iv (whole (-40) 0, whole 16 0), .ok⟩,
   ⟨190, .mul (whole (-2) 0, whole 5 0) (whole (-4) 0, whole 3 0), .iv (whole (-20) 0, whole 15 0), .ok⟩,
   ⟨192, .mul (whole (-4) 0, whole 5 0) (whole (-4) 0, whole 3 0), .iv (whole (-20) 0, whole 16 0), .ok⟩,
   ⟨194, .mul (whole (-3) 0, whole 0 0) (whole (-3) 0, whole (-2) 0), .iv (whole 0 0, whole 9 0), .ok⟩,
   ⟨196, .mul (whole (-3) 0, whole 0 0) (whole (-1) 0, whole 1 0), .iv (whole (-3) 0, whole 3 0), .ok⟩,
   ⟨198, .mul (whole (-3) 0, whole 0 0) (whole 2 0, whole 3 0), .iv (whole (-9) 0, whole 0 0), .ok⟩,
   ⟨200, .mul (whole (-3) 0, whole (-2) 0) (whole (-3) 0, whole 0 0), .iv (whole 0 0, whole 9 0), .ok⟩,
   ⟨202, .mul (whole (-3) 0, whole (-2) 0) (whole 0 0, whole 3 0), .iv (whole (-9) 0, whole 0 0), .ok⟩,
   ⟨204, .mul (whole (-1) 0, whole 1 0) (whole (-3) 0, whole 0 0), .iv (whole (-3) 0, whole 3 0), .ok⟩,
   ⟨206, .mul (whole (-1) 0, whole 1 0) (whole 0 0, whole 3 0), .iv (whole (-3) 0, whole 3 0), .ok⟩,
   ⟨208, .mul (whole 0 0, whole 3 0) (whole (-3) 0, whole (-2) 0), .iv (whole (-9) 0, whole 0 0), .ok⟩,
   ⟨210, .mul (whole 0 0, whole 3 0) (whole (-1) 0, whole 1 0), .iv (whole (-3) 0, whole 3 0), .ok⟩,
   ⟨212, .mul (whole 0 0, whole 3 0) (whole 2 0, whole 3 0), .iv (whole 0 0, whole 9 0), .ok⟩,
   ⟨214, .mul (whole 2 0, whole 3 0) (whole (-3) 0, whole 0 0), .iv (whole (-9) 0, whole 0 0), .ok⟩,
   ⟨216, .mul (whole 2 0, whole 3 0) (whole (-3) 0, whole 0 0), .iv (whole (-9) 0, whole 0 0), .ok⟩,
   ⟨218, .mul (whole 0 0, whole 2 0) (whole (-3) 0, whole 0 0), .iv (whole (-6) 0, whole 0 0), .ok⟩,
   ⟨220, .mul (bin (-253) 1071, bin (-253) 1071) (bin (-253) 1071, bin (-253) 1071), .iv (whole 0 0, bin 1 1074), .ok⟩,
   ⟨222, .mul (bin (-253) 1071, bin (-253) 1071) (whole 1 0, whole 1 0), .iv (bin (-253) 1071, bin (-253) 1071), .ok⟩,
   ⟨224, .mul (bin (-253) 1071, bin (-253) 1071) (whole (-1) 0, whole (-1) 0), .iv (bin 253 1071, bin 253 1071), .ok⟩,
   ⟨226, .mul (bin (-253) 1071, bin (-253) 1071) (bin 253 1071, bin 253 1071), .iv (bin (-1) 1074, whole 0 0), .ok⟩,
   ⟨228, .mul (bin (-253) 1071, bin (-253) 1071) (whole 0 0, whole 0 0), .iv (whole 0 0, whole 0 0), .ok⟩,
   ⟨230, .mul (bin 253 1071, bin 253 1071) (whole 0 0, whole 0 0), .iv (whole 0 0, whole 0 0), .ok⟩]

theorem fi_mulii_agree : ∀ r ∈ fi_mulii, r.agrees libm = true := by decide +kernel

/-- fi_lib.py, `TestCase_FI_LIB_subii`. -/
def fi_subii : List Run :=
  [⟨98, .sub (whole 0 0, whole 0 0) (whole 0 0, whole 0 0), .iv (whole 0 0, whole 0 0), .ok⟩,
   ⟨100, .sub (whole 1 0, whole 1 0) (whole 2 0, whole 2 0), .iv (whole (-1) 0, whole (-1) 0), .ok⟩,
   ⟨102, .sub (whole (-1) 0, whole (-1) 0) (whole (-2) 0, whole (-2) 0), .iv (whole 1 0, whole 1 0), .ok⟩,
   ⟨104, .sub (whole 1 0, whole 1 0) (whole (-1) 0, whole (-1) 0), .iv (whole 2 0, whole 2 0), .ok⟩,
   ⟨106, .sub (whole (-1) 0, whole (-1) 0) (whole 1 0, whole 1 0), .iv (whole (-2) 0, whole (-2) 0), .ok⟩,
   ⟨108, .sub (bin 253 1071, bin 253 1071) (bin 253 1071, bin 253 1071), .iv (whole 0 0, whole 0 0), .ok⟩,
   ⟨110, .sub (bin 253 1071, bin 253 1071) (whole 1 0, whole 1 0), .iv (whole (-1) 0, bin (-9007199254740991) 53), .ok⟩,
   ⟨112, .sub (bin (-253) 1071, bin (-253) 1071) (bin (-253) 1071, bin (-253) 1071), .iv (whole 0 0, whole 0 0), .ok⟩,
   ⟨114, .sub (bin (-253) 1071, bin (-253) 1071) (whole 1 0, whole 1 0), .iv (bin (-4503599627370497) 52, whole (-1) 0), .ok⟩,
   ⟨116, .sub (whole 9007199254740991 971, whole 9007199254740991 971) (whole 1 0, whole 1 0), .iv (whole 4503599627370495 972, whole 9007199254740991 971), .ok⟩,
   ⟨118, .sub (whole (-9007199254740991) 971, whole (-9007199254740991) 971) (whole (-1) 0, whole (-1) 0), .iv (whole (-9007199254740991) 971, whole (-4503599627370495) 972), .ok⟩,
   ⟨120, .sub (whole 0 0, whole 1 0) (whole 1 0, whole 2 0), .iv (whole (-2) 0, whole 0 0), .ok⟩,
   ⟨122, .sub (whole 1 0, whole 2 0) (whole 0 0, whole 1 0), .iv (whole 0 0, whole 2 0), .ok⟩,
   ⟨124, .sub (whole 1 0, whole 2 0) (whole 3 0, whole 4 0), .iv (whole (-3) 0, whole (-1) 0), .ok⟩,
   ⟨126, .sub (whole 3 0, whole 4 0) (whole 1 0, whole 2 0), .iv (whole 1 0, whole 3 0), .ok⟩,
   ⟨128, .sub (whole (-1) 0, whole 0 0) (whole (-4) 0, whole (-3) 0), .iv (whole 2 0, whole 4 0), .ok⟩,
   ⟨130, .sub (whole (-4) 0, whole (-3) 0) (whole (-1) 0, whole 0 0), .iv (whole (-4) 0, whole (-2) 0), .ok⟩,
   ⟨132, .sub (whole (-5) 0, whole (-4) 0) (whole 4 0, whole 5 0), .iv (whole (-10) 0, whole (-8) 0), .ok⟩,
   ⟨134, .sub (whole 4 0, whole 5 0) (whole (-5) 0, whole (-4) 0), .iv (whole 8 0, whole 10 0), .ok⟩]

theorem fi_subii_agree : ∀ r ∈ fi_subii, r.agrees libm = true := by decide +kernel

/-- libieeep1788_elem.py, `TestCase_minimal_abs_test`. -/
def elem_abs : List Run :=
  [⟨1794, .abs (.nan, .nan), .iv (.nan, .nan), .got (.nan) (.nan)⟩,
   ⟨1796, .abs (.ninf, .pinf), .iv (whole 0 0, .pinf), .ok⟩,
   ⟨1798, .abs (bin 2476979795053773 51, bin 4728779608739021 51), .iv (bin 2476979795053773 51, bin 4728779608739021 51), .ok⟩,
   ⟨1800, .abs (bin (-2476979795053773) 51, whole 2 0), .iv (whole 0 0, whole 2 0), .ok⟩,
   ⟨1802, .abs (bin (-2476979795053773) 51, whole 0 0), .iv (whole 0 0, bin 2476979795053773 51), .ok⟩,
   ⟨1804, .abs (bin (-2476979795053773) 51, whole 0 0), .iv (whole 0 0, bin 2476979795053773 51), .ok⟩,
   ⟨1806, .abs (bin (-2476979795053773) 51, bin (-3602879701896397) 53), .iv (bin 3602879701896397 53, bin 2476979795053773 51), .ok⟩,
   ⟨1808, .abs (bin (-4278419646001971) 51, bin 3602879701896397 54), .iv (whole 0 0, bin 4278419646001971 51), .ok⟩,
   ⟨1810, .abs (whole 0 0, bin 3602879701896397 54), .iv (whole 0 0, bin 3602879701896397 54), .ok⟩,
   ⟨1812, .abs (whole 0 0, bin 3602879701896397 54), .iv (whole 0 0, bin 3602879701896397 54), .ok⟩,
   ⟨1814, .abs (bin (-3) 1, .pinf), .iv (whole 0 0, .pinf), .ok⟩,
   ⟨1816, .abs (.ninf, bin (-2476979795053773) 50), .iv (bin 2476979795053773 50, .pinf), .ok⟩]

theorem elem_abs_agree : ∀ r ∈ elem_abs, r.agrees libm = true := by decide +kernel

/-- libieeep1788_elem.py, `TestCase_minimal_add_test`. -/
def elem_add : List Run :=
  [⟨90, .add (.nan, .nan) (.nan, .nan), .iv (.nan, .nan), .got (.nan) (.nan)⟩,
   ⟨92, .add (whole (-1) 0, whole 1 0) (.nan, .nan), .iv (.nan, .nan), .got (.nan) (.nan)⟩,
   ⟨94, .add (.nan, .nan) (whole (-1) 0, whole 1 0), .iv (.nan, .nan), .got (.nan) (.nan)⟩,
   ⟨96, .add (.nan, .nan) (.ninf, .pinf), .iv (.nan, .nan), .got (.nan) (.nan)⟩,
   ⟨98, .add (.ninf, .pinf) (.nan, .nan), .iv (.nan, .nan), .got (.nan) (.nan)⟩,
   ⟨100, .add (.ninf, .pinf) (.ninf, whole 1 0), .iv (.ninf, .pinf), .ok⟩,
   ⟨102, .add (.ninf, .pinf) (whole (-1) 0, whole 1 0), .iv (.ninf, .pinf), .ok⟩,
   ⟨104, .add (.ninf, .pinf) (whole (-1) 0, .pinf), .iv (.ninf, .pinf), .ok⟩,
   ⟨106, .add (.ninf, .pinf) (.ninf, .pinf), .iv (.ninf, .pinf), .ok⟩,
   ⟨108, .add (.ninf, whole 1 0) (.ninf, .pinf), .iv (.ninf, .pinf), .ok⟩,
   ⟨110, .add (whole (-1) 0, whole 1 0) (.ninf, .pinf), .iv (.ninf, .pinf), .ok⟩,
   ⟨112, .add (whole (-1) 0, .pinf) (.ninf, .pinf), .iv (.ninf, .pinf), .ok⟩,
   ⟨114, .add (.ninf, whole 2 0) (.ninf, whole 4 0), .iv (.ninf, whole 6 0), .ok⟩,
   ⟨116, .add (.ninf, whole 2 0) (whole 3 0, whole 4 0), .iv (.ninf, whole 6 0), .ok⟩,
   ⟨118, .add (.ninf, whole 2 0) (whole 3 0, .pinf), .iv (.ninf, .pinf), .ok⟩,
   ⟨120, .add (whole 1 0, whole 2 0) (.ninf, whole 4 0), .iv (.ninf, whole 6 0), .ok⟩,
   ⟨122, .add (whole 1 0, whole 2 0) (whole 3 0, whole 4 0), .iv (whole 4 0, whole 6 0), .ok⟩,
   ⟨124, .add (whole 1 0, whole 2 0) (whole 3 0, .pinf), .iv (whole 4 0, .pinf), .ok⟩,
   ⟨126, .add (whole 1 0, .pinf) (.ninf, whole 4 0), .iv (.ninf, .pinf), .ok⟩,
   ⟨128, .add (whole 1 0, .pinf) (whole 3 0, whole 4 0), .iv (whole 4 0, .pinf), .ok⟩,
   ⟨130, .add (whole 1 0, .pinf) (whole 3 0, .pinf), .iv (whole 4 0, .pinf), .ok⟩,
   ⟨132, .add (whole 1 0, whole 9007199254740991 971) (whole 3 0, whole 4 0), .iv (whole 4 0, .pinf), .ok⟩,
   ⟨134, .add (whole (-9007199254740991) 971, whole 2 0) (whole (-3) 0, whole 4 0), .iv (.ninf, whole 6 0), .ok⟩,
   ⟨136, .add (whole (-9007199254740991) 971, whole 2 0) (whole (-3) 0, whole 9007199254740991 971), .iv (.ninf, .pinf), .ok⟩,
   ⟨138, .add (whole 1 0, whole 9007199254740991 971) (whole 0 0, whole 0 0), .iv (whole 1 0, whole 9007199254740991 971), .ok⟩,
   ⟨140, .add (whole 1 0, whole 9007199254740991 971) (whole 0 0, whole 0 0), .iv (whole 1 0, whole 9007199254740991 971), .ok⟩,
   ⟨142, .add (whole 0 0, whole 0 0) (whole (-3) 0, whole 4 0), .iv (whole (-3) 0, whole 4 0), .ok⟩,
   ⟨144, .add (whole 0 0, whole 0 0) (whole (-3) 0, whole 9007199254740991 971), .iv (whole (-3) 0, whole 9007199254740991 971), .ok⟩,
   ⟨146, .add (bin 562949953421311 48, bin 562949953421311 48) (bin 3602879701896397 55, bin 3602879701896397 55), .iv (bin 1182194902184753 49, bin 4728779608739013 51), .ok⟩,
   ⟨148, .add (bin 562949953421311 48, bin 562949953421311 48) (bin (-3602879701896397) 55, bin (-3602879701896397) 55), .iv (bin 4278419646001963 51, bin 8556839292003927 52), .ok⟩,
   ⟨150, .add (bin (-562949953421311) 48, bin 562949953421311 48) (bin 3602879701896397 55, bin 3602879701896397 55), .iv (bin (-8556839292003927) 52, bin 4728779608739013 51), .ok⟩]

theorem elem_add_agree : ∀ r ∈ elem_add, r.agrees libm = true := by decide +kernel

/-- libieeep1788_elem.py, `TestCase_minimal_cos_test`. -/
def elem_cos : List Run :=
  [⟨1510, .cos (.nan, .nan), .iv (.nan, .nan), .got (.nan) (.nan)⟩,
   ⟨1512, .cos (whole 0 0, .pinf), .iv (whole (-1) 0, whole 1 0), .raised .valueError⟩,
   ⟨1514, .cos (whole 0 0, .pinf), .iv (whole (-1) 0, whole 1 0), .raised .valueError⟩,
   ⟨1516, .cos (.ninf, whole 0 0), .iv (whole (-1) 0, whole 1 0), .raised .valueError⟩,
   ⟨1518, .cos (.ninf, whole 0 0), .iv (whole (-1) 0, whole 1 0), .raised .valueError⟩,
   ⟨1520, .cos (.ninf, .pinf), .iv (whole (-1) 0, whole 1 0), .raised .valueError⟩,
   ⟨1522, .cos (whole 0 0, whole 0 0), .iv (whole 1 0, whole 1 0), .got (whole 1 0) (whole 1 0)⟩,
   ⟨1524, .cos (whole 0 0, whole 0 0), .iv (whole 1 0, whole 1 0), .got (whole 1 0) (whole 1 0)⟩,
   ⟨1526, .cos (bin 884279719003555 49, bin 884279719003555 49), .iv (bin 2483878800010755 105, bin 4967757600021511 106), .got (dec 612323 22) (dec 612323 22)⟩,
   ⟨1528, .cos (bin 7074237752028441 52, bin 7074237752028441 52), .iv (bin (-6523320454730237) 105, bin (-1630830113682559) 103), .got (dec (-160812) 21) (dec (-160812) 21)⟩,
   ⟨1530, .cos (bin 884279719003555 49, bin 7074237752028441 52), .iv (bin (-6523320454730237) 105, bin 4967757600021511 106), .got (dec (-160812) 21) (dec 612323 22)⟩,
   ⟨1532, .cos (whole 0 0, bin 884279719003555 49), .iv (bin 2483878800010755 105, whole 1 0), .ok⟩,
   ⟨1534, .cos (whole 0 0, bin 884279719003555 49), .iv (bin 2483878800010755 105, whole 1 0), .ok⟩,
   ⟨1536, .cos (whole 0 0, bin 7074237752028441 52), .iv (bin (-6523320454730237) 105, whole 1 0), .got (dec (-160812) 21) (whole 1 0)⟩,
   ⟨1538, .cos (whole 0 0, bin 7074237752028441 52), .iv (bin (-6523320454730237) 105, whole 1 0), .got (dec (-160812) 21) (whole 1 0)⟩,
   ⟨1540, .cos (bin 884279719003555 48, bin 884279719003555 48), .iv (whole (-1) 0, bin (-9007199254740991) 53), .ok⟩,
   ⟨1542, .cos (bin 7074237752028441 51, bin 7074237752028441 51), .iv (whole (-1) 0, bin (-9007199254740991) 53), .got (whole (-1) 0) (whole (-1) 0)⟩,
   ⟨1544, .cos (bin 884279719003555 48, bin 7074237752028441 51), .iv (whole (-1) 0, bin (-9007199254740991) 53), .ok⟩,
   ⟨1546, .cos (whole 0 0, bin 884279719003555 48), .iv (whole (-1) 0, whole 1 0), .ok⟩,
   ⟨1548, .cos (whole 0 0, bin 884279719003555 48), .iv (whole (-1) 0, whole 1 0), .ok⟩,
   ⟨1550, .cos (whole 0 0, bin 7074237752028441 51), .iv (whole (-1) 0, whole 1 0), .ok⟩,
   ⟨1552, .cos (whole 0 0, bin 7074237752028441 51), .iv (whole (-1) 0, whole 1 0), .ok⟩,
   ⟨1554, .cos (bin 884279719003555 49, bin 884279719003555 48), .iv (whole (-1) 0, bin 4967757600021511 106), .got (whole (-1) 0) (dec 612323 22)⟩,
   ⟨1556, .cos (bin 884279719003555 49, bin 7074237752028441 51), .iv (whole (-1) 0, bin 4967757600021511 106), .got (whole (-1) 0) (dec 612323 22)⟩,
   ⟨1558, .cos (bin 7074237752028441 52, bin 884279719003555 48), .iv (whole (-1) 0, bin (-1630830113682559) 103), .ok⟩,
   ⟨1560, .cos (bin 7074237752028441 52, bin 7074237752028441 51), .iv (whole (-1) 0, bin (-1630830113682559) 103), .ok⟩,
   ⟨1562, .cos (bin (-884279719003555) 49, bin (-884279719003555) 49), .iv (bin 2483878800010755 105, bin 4967757600021511 106), .got (dec 612323 22) (dec 612323 22)⟩,
   ⟨1564, .cos (bin (-7074237752028441) 52, bin (-7074237752028441) 52), .iv (bin (-6523320454730237) 105, bin (-1630830113682559) 103), .got (dec (-160812) 21) (dec (-160812) 21)⟩,
   ⟨1566, .cos (bin (-7074237752028441) 52, bin (-884279719003555) 49), .iv (bin (-6523320454730237) 105, bin 4967757600021511 106), .got (dec (-160812) 21) (dec 612323 22)⟩,
   ⟨1568, .cos (bin (-884279719003555) 49, whole 0 0), .iv (bin 2483878800010755 105, whole 1 0), .ok⟩,
   ⟨1570, .cos (bin (-884279719003555) 49, whole 0 0), .iv (bin 2483878800010755 105, whole 1 0), .ok⟩,
   ⟨1572, .cos (bin (-7074237752028441) 52, whole 0 0), .iv (bin (-6523320454730237) 105, whole 1 0), .got (dec (-160812) 21) (whole 1 0)⟩,
   ⟨1574, .cos (bin (-7074237752028441) 52, whole 0 0), .iv (bin (-6523320454730237) 105, whole 1 0), .got (dec (-160812) 21) (whole 1 0)⟩,
   ⟨1576, .cos (bin (-884279719003555) 48, bin (-884279719003555) 48), .iv (whole (-1) 0, bin (-9007199254740991) 53), .ok⟩,
   ⟨1578, .cos (bin (-7074237752028441) 51, bin (-7074237752028441) 51), .iv (whole (-1) 0, bin (-9007199254740991) 53), .got (whole (-1) 0) (whole (-1) 0)⟩,
   ⟨1580, .cos (bin (-7074237752028441) 51, bin (-884279719003555) 48), .iv (whole (-1) 0, bin (-9007199254740991) 53), .ok⟩,
   ⟨1582, .cos (bin (-884279719003555) 48, whole 0 0), .iv (whole (-1) 0, whole 1 0), .ok⟩,
   ⟨1584, .cos (bin (-884279719003555) 48, whole 0 0), .iv (whole (-1) 0, whole 1 0), .ok⟩,
   ⟨1586, .cos (bin (-7074237752028441) 51, whole 0 0), .iv (whole (-1) 0, whole 1 0), .ok⟩,
   ⟨1588, .cos (bin (-7074237752028441) 51, whole 0 0), .iv (whole (-1) 0, whole 1 0), .ok⟩,
   ⟨1590, .cos (bin (-884279719003555) 48, bin (-884279719003555) 49), .iv (whole (-1) 0, bin 4967757600021511 106), .got (whole (-1) 0) (dec 612323 22)⟩,
   ⟨1592, .cos (bin (-7074237752028441) 51, bin (-884279719003555) 49), .iv (whole (-1) 0, bin 4967757600021511 106), .got (whole (-1) 0) (dec 612323 22)⟩,
   ⟨1594, .cos (bin (-884279719003555) 48, bin (-7074237752028441) 52), .iv (whole (-1) 0, bin (-1630830113682559) 103), .ok⟩,
   ⟨1596, .cos (bin (-7074237752028441) 51, bin (-7074237752028441) 52), .iv (whole (-1) 0, bin (-1630830113682559) 103), .ok⟩,
   ⟨1598, .cos (bin (-884279719003555) 49, bin 884279719003555 49), .iv (bin 2483878800010755 105, whole 1 0), .ok⟩,
   ⟨1600, .cos (bin (-884279719003555) 49, bin 7074237752028441 52), .iv (bin (-6523320454730237) 105, whole 1 0), .got (dec (-160812) 21) (whole 1 0)⟩,
   ⟨1602, .cos (bin (-7074237752028441) 52, bin 884279719003555 49), .iv (bin (-6523320454730237) 105, whole 1 0), .got (dec (-160812) 21) (whole 1 0)⟩,
   ⟨1604, .cos (bin (-7074237752028441) 52, bin 7074237752028441 52), .iv (bin (-6523320454730237) 105, whole 1 0), .got (dec (-160812) 21) (whole 1 0)⟩,
   ⟨1606, .cos (bin (-3152519739159347) 52, bin 3602879701896397 55), .iv (bin 3444542989651657 52, whole 1 0), .ok⟩,
   ⟨1608, .cos (whole 1 0, whole 2 0), .iv (bin (-7496634952020485) 54, bin 1216652631687587 51), .got (dec (-416147) 6) (dec 540302 6)⟩,
   ⟨1610, .cos (bin (-3602879701896397) 50, bin (-6530219459687219) 51), .iv (whole (-1) 0, bin (-1093201707690009) 50), .ok⟩,
   ⟨1612, .cos (whole 2 0, whole 3 0), .iv (bin (-8917059677578707) 53, bin (-1874158738005121) 52), .ok⟩]

theorem elem_cos_agree : ∀ r ∈ elem_cos, r.agrees libm = true := by decide +kernel

/-- libieeep1788_elem.py, `TestCase_minimal_div_test`. -/
def elem_div_1 : List Run :=
  [⟨475, .div (.nan, .nan) (.nan, .nan), .iv (.nan, .nan), .got (.nan) (.nan)⟩,
   ⟨477, .div (whole (-1) 0, whole 1 0) (.nan, .nan), .iv (.nan, .nan), .got (.nan) (.nan)⟩,
   ⟨479, .div (.nan, .nan) (whole (-1) 0, whole 1 0), .iv (.nan, .nan), .raised .valueError⟩,
   ⟨481, .div (.nan, .nan) (bin 3602879701896397 55, whole 1 0), .iv (.nan, .nan), .got (.nan) (.nan)⟩,
   ⟨483, .div (.nan, .nan) (whole (-1) 0, bin (-3602879701896397) 55), .iv (.nan, .nan), .got (.nan) (.nan)⟩,
   ⟨485, .div (.nan, .nan) (.ninf, .pinf), .iv (.nan, .nan), .raised .valueError⟩,
   ⟨487, .div (.ninf, .pinf) (.nan, .nan), .iv (.nan, .nan), .got (.nan) (.nan)⟩,
   ⟨489, .div (whole 0 0, whole 0 0) (.nan, .nan), .iv (.nan, .nan), .got (.nan) (.nan)⟩,
   ⟨491, .div (.nan, .nan) (whole 0 0, whole 0 0), .iv (.nan, .nan), .raised .valueError⟩,
   ⟨493, .div (whole 0 0, whole 0 0) (.nan, .nan), .iv (.nan, .nan), .got (.nan) (.nan)⟩,
   ⟨495, .div (.nan, .nan) (whole 0 0, whole 0 0), .iv (.nan, .nan), .raised .valueError⟩,
   ⟨497, .div (.ninf, .pinf) (whole (-5) 0, whole (-3) 0), .iv (.ninf, .pinf), .ok⟩,
   ⟨499, .div (.ninf, .pinf) (whole 3 0, whole 5 0), .iv (.ninf, .pinf), .ok⟩,
   ⟨501, .div (.ninf, .pinf) (.ninf, whole (-3) 0), .iv (.ninf, .pinf), .got (.nan) (.nan)⟩,
   ⟨503, .div (.ninf, .pinf) (whole 3 0, .pinf), .iv (.ninf, .pinf), .ok⟩,
   ⟨505, .div (.ninf, .pinf) (whole 0 0, whole 0 0), .iv (.nan, .nan), .raised .valueError⟩,
   ⟨507, .div (.ninf, .pinf) (whole 0 0, whole 0 0), .iv (.nan, .nan), .raised .valueError⟩,
   ⟨509, .div (.ninf, .pinf) (whole (-3) 0, whole 0 0), .iv (.ninf, .pinf), .raised .valueError⟩,
   ⟨511, .div (.ninf, .pinf) (whole (-3) 0, whole 0 0), .iv (.ninf, .pinf), .raised .valueError⟩,
   ⟨513, .div (.ninf, .pinf) (whole (-3) 0, whole 3 0), .iv (.ninf, .pinf), .raised .valueError⟩,
   ⟨515, .div (.ninf, .pinf) (whole 0 0, whole 3 0), .iv (.ninf, .pinf), .raised .valueError⟩,
   ⟨517, .div (.ninf, .pinf) (.ninf, whole 0 0), .iv (.ninf, .pinf), .raised .valueError⟩,
   ⟨519, .div (.ninf, .pinf) (whole 0 0, whole 3 0), .iv (.ninf, .pinf), .raised .valueError⟩,
   ⟨521, .div (.ninf, .pinf) (.ninf, whole 0 0), .iv (.ninf, .pinf), .raised .valueError⟩,
   ⟨523, .div (.ninf, .pinf) (.ninf, whole 3 0), .iv (.ninf, .pinf), .raised .valueError⟩,
   ⟨525, .div (.ninf, .pinf) (whole (-3) 0, .pinf), .iv (.ninf, .pinf), .raised .valueError⟩,
   ⟨527, .div (.ninf, .pinf) (whole 0 0, .pinf), .iv (.ninf, .pinf), .raised .valueError⟩,
   ⟨529, .div (.ninf, .pinf) (whole 0 0, .pinf), .iv (.ninf, .pinf), .raised .valueError⟩,
   ⟨531, .div (.ninf, .pinf) (.ninf, .pinf), .iv (.ninf, .pinf), .raised .valueError⟩,
   ⟨533, .div (whole (-30) 0, whole (-15) 0) (whole (-5) 0, whole (-3) 0), .iv (whole 3 0, whole 10 0), .ok⟩,
   ⟨535, .div (whole (-30) 0, whole (-15) 0) (whole 3 0, whole 5 0), .iv (whole (-10) 0, whole (-3) 0), .ok⟩,
   ⟨537, .div (whole (-30) 0, whole (-15) 0) (.ninf, whole (-3) 0), .iv (whole 0 0, whole 10 0), .ok⟩,
   ⟨539, .div (whole (-30) 0, whole (-15) 0) (whole 3 0, .pinf), .iv (whole (-10) 0, whole 0 0), .ok⟩,
   ⟨541, .div (whole (-30) 0, whole (-15) 0) (whole 0 0, whole 0 0), .iv (.nan, .nan), .raised .valueError⟩,
   ⟨543, .div (whole (-30) 0, whole (-15) 0) (whole (-3) 0, whole 0 0), .iv (whole 5 0, .pinf), .raised .valueError⟩,
   ⟨545, .div (whole (-30) 0, whole (-15) 0) (whole 0 0, whole 0 0), .iv (.nan, .nan), .raised .valueError⟩,
   ⟨547, .div (whole (-30) 0, whole (-15) 0) (whole (-3) 0, whole 0 0), .iv (whole 5 0, .pinf), .raised .valueError⟩,
   ⟨549, .div (whole (-30) 0, whole (-15) 0) (whole (-3) 0, whole 3 0), .iv (.ninf, .pinf), .raised .valueError⟩,
   ⟨551, .div (whole (-30) 0, whole (-15) 0) (whole 0 0, whole 3 0), .iv (.ninf, whole (-5) 0), .raised .valueError⟩,
   ⟨553, .div (whole (-30) 0, whole (-15) 0) (.ninf, whole 0 0), .iv (whole 0 0, .pinf), .raised .valueError⟩,
   ⟨555, .div (whole (-30) 0, whole (-15) 0) (whole 0 0, whole 3 0), .iv (.ninf, whole (-5) 0), .raised .valueError⟩,
   ⟨557, .div (whole (-30) 0, whole (-15) 0) (.ninf, whole 0 0), .iv (whole 0 0, .pinf), .raised .valueError⟩,
   ⟨559, .div (whole (-30) 0, whole (-15) 0) (.ninf, whole 3 0), .iv (.ninf, .pinf), .raised .valueError⟩,
   ⟨561, .div (whole (-30) 0, whole (-15) 0) (whole (-3) 0, .pinf), .iv (.ninf, .pinf), .raised .valueError⟩,
   ⟨563, .div (whole (-30) 0, whole (-15) 0) (whole 0 0, .pinf), .iv (.ninf, whole 0 0), .raised .valueError⟩,
   ⟨565, .div (whole (-30) 0, whole (-15) 0) (whole 0 0, .pinf), .iv (.ninf, whole 0 0), .raised .valueError⟩,
   ⟨567, .div (whole (-30) 0, whole (-15) 0) (.ninf, .pinf), .iv (.ninf, .pinf), .raised .valueError⟩,
   ⟨569, .div (whole (-30) 0, whole 15 0) (whole (-5) 0, whole (-3) 0), .iv (whole (-5) 0, whole 10 0), .ok⟩,
   ⟨571, .div (whole (-30) 0, whole 15 0) (whole 3 0, whole 5 0), .iv (whole (-10) 0, whole 5 0), .ok⟩,
   ⟨573, .div (whole (-30) 0, whole 15 0) (.ninf, whole (-3) 0), .iv (whole (-5) 0, whole 10 0), .ok⟩,
   ⟨575, .div (whole (-30) 0, whole 15 0) (whole 3 0, .pinf), .iv (whole (-10) 0, whole 5 0), .ok⟩,
   ⟨577, .div (whole (-30) 0, whole 15 0) (whole 0 0, whole 0 0), .iv (.nan, .nan), .raised .valueError⟩,
   ⟨579, .div (whole (-30) 0, whole 15 0) (whole 0 0, whole 0 0), .iv (.nan, .nan), .raised .valueError⟩,
   ⟨581, .div (whole (-30) 0, whole 15 0) (whole (-3) 0, whole 0 0), .iv (.ninf, .pinf), .raised .valueError⟩,
   ⟨583, .div (whole (-30) 0, whole 15 0) (whole (-3) 0, whole 0 0), .iv (.ninf, .pinf), .raised .valueError⟩,
   ⟨585, .div (whole (-30) 0, whole 15 0) (whole (-3) 0, whole 3 0), .iv (.ninf, .pinf), .raised .valueError⟩,
   ⟨587, .div (whole (-30) 0, whole 15 0) (whole 0 0, whole 3 0), .iv (.ninf, .pinf), .raised .valueError⟩,
   ⟨589, .div (whole (-30) 0, whole 15 0) (.ninf, whole 0 0), .iv (.ninf, .pinf), .raised .valueError⟩,
   ⟨591, .div (whole (-30) 0, whole 15 0) (whole 0 0, whole 3 0), .iv (.ninf, .pinf), .raised .valueError⟩,
   ⟨593, .div (whole (-30) 0, whole 15 0) (.ninf, whole 0 0), .iv (.ninf, .pinf), .raised .valueError⟩,
   ⟨595, .div (whole (-30) 0, whole 15 0) (.ninf, whole 3 0), .iv (.ninf, .pinf), .raised .valueError⟩,
   ⟨597, .div (whole (-30) 0, whole 15 0) (whole (-3) 0, .pinf), .iv (.ninf, .pinf), .raised .valueError⟩,
   ⟨599, .div (whole (-30) 0, whole 15 0) (whole 0 0, .pinf), .iv (.ninf, .pinf), .raised .valueError⟩,
   ⟨601, .div (whole (-30) 0, whole 15 0) (whole 0 0, .pinf), .iv (.ninf, .pinf), .raised .valueError⟩,
   ⟨603, .div (whole (-30) 0, whole 15 0) (.ninf, .pinf), .iv (.ninf, .pinf), .raised .valueError⟩,
   ⟨605, .div (whole 15 0, whole 30 0) (whole (-5) 0, whole (-3) 0), .iv (whole (-10) 0, whole (-3) 0), .ok⟩,
   ⟨607, .div (whole 15 0, whole 30 0) (whole 3 0, whole 5 0), .iv (whole 3 0, whole 10 0), .ok⟩,
   ⟨609, .div (whole 15 0, whole 30 0) (.ninf, whole (-3) 0), .iv (whole (-10) 0, whole 0 0), .ok⟩,
   ⟨611, .div (whole 15 0, whole 30 0) (whole 3 0, .pinf), .iv (whole 0 0, whole 10 0), .ok⟩,
   ⟨613, .div (whole 15 0, whole 30 0) (whole 0 0, whole 0 0), .iv (.nan, .nan), .raised .valueError⟩,
   ⟨615, .div (whole 15 0, whole 30 0) (whole (-3) 0, whole 0 0), .iv (.ninf, whole (-5) 0), .raised .valueError⟩,
   ⟨617, .div (whole 15 0, whole 30 0) (whole 0 0, whole 0 0), .iv (.nan, .nan), .raised .valueError⟩,
   ⟨619, .div (whole 15 0, whole 30 0) (whole (-3) 0, whole 0 0), .iv (.ninf, whole (-5) 0), .raised .valueError⟩,
   ⟨621, .div (whole 15 0, whole 30 0) (whole (-3) 0, whole 3 0), .iv (.ninf, .pinf), .raised .valueError⟩,
   ⟨623, .div (whole 15 0, whole 30 0) (whole 0 0, whole 3 0), .iv (whole 5 0, .pinf), .raised .valueError⟩,
   ⟨625, .div (whole 15 0, whole 30 0) (.ninf, whole 0 0), .iv (.ninf, whole 0 0), .raised .valueError⟩,
   ⟨627, .div (whole 15 0, whole 30 0) (whole 0 0, whole 3 0), .iv (whole 5 0, .pinf), .raised .valueError⟩,
   ⟨629, .div (whole 15 0, whole 30 0) (.ninf, whole 0 0), .iv (.ninf, whole 0 0), .raised .valueError⟩,
   ⟨631, .div (whole 15 0, whole 30 0) (.ninf, whole 3 0), .iv (.ninf, .pinf), .raised .valueError⟩,
   ⟨633, .div (whole 15 0, whole 30 0) (whole (-3) 0, .pinf), .iv (.ninf, .pinf), .raised .valueError⟩,
   ⟨635, .div (whole 15 0, whole 30 0) (whole 0 0, .pinf), .iv (whole 0 0, .pinf), .raised .valueError⟩,
   ⟨637, .div (whole 15 0, whole 30 0) (whole 0 0, .pinf), .iv (whole 0 0, .pinf), .raised .valueError⟩,
   ⟨639, .div (whole 15 0, whole 30 0) (.ninf, .pinf), .iv (.ninf, .pinf), .raised .valueError⟩,
   ⟨641, .div (whole 0 0, whole 0 0) (whole (-5) 0, whole (-3) 0), .iv (whole 0 0, whole 0 0), .ok⟩,
   ⟨643, .div (whole 0 0, whole 0 0) (whole 3 0, whole 5 0), .iv (whole 0 0, whole 0 0), .ok⟩,
   ⟨645, .div (whole 0 0, whole 0 0) (.ninf, whole (-3) 0), .iv (whole 0 0, whole 0 0), .ok⟩,
   ⟨647, .div (whole 0 0, whole 0 0) (whole 3 0, .pinf), .iv (whole 0 0, whole 0 0), .ok⟩,
   ⟨649, .div (whole 0 0, whole 0 0) (whole 0 0, whole 0 0), .iv (.nan, .nan), .raised .valueError⟩,
   ⟨651, .div (whole 0 0, whole 0 0) (whole (-3) 0, whole 0 0), .iv (whole 0 0, whole 0 0), .raised .valueError⟩,
   ⟨653, .div (whole 0 0, whole 0 0) (whole 0 0, whole 0 0), .iv (.nan, .nan), .raised .valueError⟩,
   ⟨655, .div (whole 0 0, whole 0 0) (whole (-3) 0, whole 0 0), .iv (whole 0 0, whole 0 0), .raised .valueError⟩,
   ⟨657, .div (whole 0 0, whole 0 0) (whole (-3) 0, whole 3 0), .iv (whole 0 0, whole 0 0), .raised .valueError⟩,
   ⟨659, .div (whole 0 0, whole 0 0) (whole 0 0, whole 3 0), .iv (whole 0 0, whole 0 0), .raised .valueError⟩,
   ⟨661, .div (whole 0 0, whole 0 0) (.ninf, whole 0 0), .iv (whole 0 0, whole 0 0), .raised .valueError⟩,
   ⟨663, .div (whole 0 0, whole 0 0) (whole 0 0, whole 3 0), .iv (whole 0 0, whole 0 0), .raised .valueError⟩,
   ⟨665, .div (whole 0 0, whole 0 0) (.ninf, whole 0 0), .iv (whole 0 0, whole 0 0), .raised .valueError⟩,
   ⟨667, .div (whole 0 0, whole 0 0) (.ninf, whole 3 0), .iv (whole 0 0, whole 0 0), .raised .valueError⟩,
   ⟨669, .div (whole 0 0, whole 0 0) (whole (-3) 0, .pinf), .iv (whole 0 0, whole 0 0), .raised .valueError⟩,
   ⟨671, .div (whole 0 0, whole 0 0) (whole 0 0, .pinf), .iv (whole 0 0, whole 0 0), .raised .valueError⟩,
   ⟨673, .div (whole 0 0, whole 0 0) (whole 0 0, .pinf), .iv (whole 0 0, whole 0 0), .raised .valueError⟩,
   ⟨675, .div (whole 0 0, whole 0 0) (.ninf, .pinf), .iv (whole 0 0, whole 0 0), .raised .valueError⟩,
   ⟨677, .div (whole 0 0, whole 0 0) (whole (-5) 0, whole (-3) 0), .iv (whole 0 0, whole 0 0), .ok⟩,
   ⟨679, .div (whole 0 0, whole 0 0) (whole 3 0, whole 5 0), .iv (whole 0 0, whole 0 0), .ok⟩,
   ⟨681, .div (whole 0 0, whole 0 0) (.ninf, whole (-3) 0), .iv (whole 0 0, whole 0 0), .ok⟩,
   ⟨683, .div (whole 0 0, whole 0 0) (whole 3 0, .pinf), .iv (whole 0 0, whole 0 0), .ok⟩,
   ⟨685, .div (whole 0 0, whole 0 0) (whole 0 0, whole 0 0), .iv (.nan, .nan), .raised .valueError⟩,
   ⟨687, .div (whole 0 0, whole 0 0) (whole (-3) 0, whole 0 0), .iv (whole 0 0, whole 0 0), .raised .valueError⟩,
   ⟨689, .div (whole 0 0, whole 0 0) (whole 0 0, whole 0 0), .iv (.nan, .nan), .raised .valueError⟩,
   ⟨691, .div (whole 0 0, whole 0 0) (whole (-3) 0, whole 0 0), .iv (whole 0 0, whole 0 0), .raised .valueError⟩,
   ⟨693, .div (whole 0 0, whole 0 0) (whole (-3) 0, whole 3 0), .iv (whole 0 0, whole 0 0), .raised .valueError⟩,
   ⟨695, .div (whole 0 0, whole 0 0) (whole 0 0, whole 3 0), .iv (whole 0 0, whole 0 0), .raised .valueError⟩,
   ⟨697, .div (whole 0 0, whole 0 0) (.ninf, whole 0 0), .iv (whole 0 0, whole 0 0), .raised .valueError⟩,
   ⟨699, .div (whole 0 0, whole 0 0) (whole 0 0, whole 3 0), .iv (whole 0 0, whole 0 0), .raised .valueError⟩,
   ⟨701, .div (whole 0 0, whole 0 0) (.ninf, whole 0 0), .iv (whole 0 0, whole 0 0), .raised .valueError⟩,
   ⟨703, .div (whole 0 0, whole 0 0) (.ninf, whole 3 0), .iv (whole 0 0, whole 0 0), .raised .valueError⟩,
   ⟨705, .div (whole 0 0, whole 0 0) (whole (-3) 0, .pinf), .iv (whole 0 0, whole 0 0), .raised .valueError⟩,
   ⟨707, .div (whole 0 0, whole 0 0) (whole 0 0, .pinf), .iv (whole 0 0, whole 0 0), .raised .valueError⟩,
   ⟨709, .div (whole 0 0, whole 0 0) (whole 0 0, .pinf), .iv (whole 0 0, whole 0 0), .raised .valueError⟩,
   ⟨711, .div (whole 0 0, whole 0 0) (.ninf, .pinf), .iv (whole 0 0, whole 0 0), .raised .valueError⟩,
   ⟨713, .div (.ninf, whole (-15) 0) (whole (-5) 0, whole (-3) 0), .iv (whole 3 0, .pinf), .ok⟩]

theorem elem_div_1_agree : ∀ r ∈ elem_div_1, r.agrees libm = true := by decide +kernel

/-- libieeep1788_elem.py, `TestCase_minimal_div_test`. -/
def elem_div_2 : List Run :=
  [⟨715, .div (.ninf, whole (-15) 0) (whole 3 0, whole 5 0), .iv (.ninf, whole (-3) 0), .ok⟩,
   ⟨717, .div (.ninf, whole (-15) 0) (.ninf, whole (-3) 0), .iv (whole 0 0, .pinf), .got (.nan) (.nan)⟩,
   ⟨719, .div (.ninf, whole (-15) 0) (whole 3 0, .pinf), .iv (.ninf, whole 0 0), .ok⟩,
   ⟨721, .div (.ninf, whole (-15) 0) (whole 0 0, whole 0 0), .iv (.nan, .nan), .raised .valueError⟩,
   ⟨723, .div (.ninf, whole (-15) 0) (whole (-3) 0, whole 0 0), .iv (whole 5 0, .pinf), .raised .valueError⟩,
   ⟨725, .div (.ninf, whole (-15) 0) (whole 0 0, whole 0 0), .iv (.nan, .nan), .raised .valueError⟩,
   ⟨727, .div (.ninf, whole (-15) 0) (whole (-3) 0, whole 0 0), .iv (whole 5 0, .pinf), .raised .valueError⟩,
   ⟨729, .div (.ninf, whole (-15) 0) (whole (-3) 0, whole 3 0), .iv (.ninf, .pinf), .raised .valueError⟩,
   ⟨731, .div (.ninf, whole (-15) 0) (whole 0 0, whole 3 0), .iv (.ninf, whole (-5) 0), .raised .valueError⟩,
   ⟨733, .div (.ninf, whole (-15) 0) (.ninf, whole 0 0), .iv (whole 0 0, .pinf), .raised .valueError⟩,
   ⟨735, .div (.ninf, whole (-15) 0) (whole 0 0, whole 3 0), .iv (.ninf, whole (-5) 0), .raised .valueError⟩,
   ⟨737, .div (.ninf, whole (-15) 0) (.ninf, whole 0 0), .iv (whole 0 0, .pinf), .raised .valueError⟩,
   ⟨739, .div (.ninf, whole (-15) 0) (.ninf, whole 3 0), .iv (.ninf, .pinf), .raised .valueError⟩,
   ⟨741, .div (.ninf, whole (-15) 0) (whole (-3) 0, .pinf), .iv (.ninf, .pinf), .raised .valueError⟩,
   ⟨743, .div (.ninf, whole (-15) 0) (whole 0 0, .pinf), .iv (.ninf, whole 0 0), .raised .valueError⟩,
   ⟨745, .div (.ninf, whole (-15) 0) (whole 0 0, .pinf), .iv (.ninf, whole 0 0), .raised .valueError⟩,
   ⟨747, .div (.ninf, whole (-15) 0) (.ninf, .pinf), .iv (.ninf, .pinf), .raised .valueError⟩,
   ⟨749, .div (.ninf, whole 15 0) (whole (-5) 0, whole (-3) 0), .iv (whole (-5) 0, .pinf), .ok⟩,
   ⟨751, .div (.ninf, whole 15 0) (whole 3 0, whole 5 0), .iv (.ninf, whole 5 0), .ok⟩,
   ⟨753, .div (.ninf, whole 15 0) (.ninf, whole (-3) 0), .iv (whole (-5) 0, .pinf), .got (.nan) (.nan)⟩,
   ⟨755, .div (.ninf, whole 15 0) (whole 3 0, .pinf), .iv (.ninf, whole 5 0), .ok⟩,
   ⟨757, .div (.ninf, whole 15 0) (whole 0 0, whole 0 0), .iv (.nan, .nan), .raised .valueError⟩,
   ⟨759, .div (.ninf, whole 15 0) (whole (-3) 0, whole 0 0), .iv (.ninf, .pinf), .raised .valueError⟩,
   ⟨761, .div (.ninf, whole 15 0) (whole 0 0, whole 0 0), .iv (.nan, .nan), .raised .valueError⟩,
   ⟨763, .div (.ninf, whole 15 0) (whole (-3) 0, whole 0 0), .iv (.ninf, .pinf), .raised .valueError⟩,
   ⟨765, .div (.ninf, whole 15 0) (whole (-3) 0, whole 3 0), .iv (.ninf, .pinf), .raised .valueError⟩,
   ⟨767, .div (.ninf, whole 15 0) (whole 0 0, whole 3 0), .iv (.ninf, .pinf), .raised .valueError⟩,
   ⟨769, .div (.ninf, whole 15 0) (.ninf, whole 0 0), .iv (.ninf, .pinf), .raised .valueError⟩,
   ⟨771, .div (.ninf, whole 15 0) (whole 0 0, whole 3 0), .iv (.ninf, .pinf), .raised .valueError⟩,
   ⟨773, .div (.ninf, whole 15 0) (.ninf, whole 0 0), .iv (.ninf, .pinf), .raised .valueError⟩,
   ⟨775, .div (.ninf, whole 15 0) (.ninf, whole 3 0), .iv (.ninf, .pinf), .raised .valueError⟩,
   ⟨777, .div (.ninf, whole 15 0) (whole (-3) 0, .pinf), .iv (.ninf, .pinf), .raised .valueError⟩,
   ⟨779, .div (.ninf, whole 15 0) (whole 0 0, .pinf), .iv (.ninf, .pinf), .raised .valueError⟩,
   ⟨781, .div (.ninf, whole 15 0) (whole 0 0, .pinf), .iv (.ninf, .pinf), .raised .valueError⟩,
   ⟨783, .div (.ninf, whole 15 0) (.ninf, .pinf), .iv (.ninf, .pinf), .raised .valueError⟩,
   ⟨785, .div (whole (-15) 0, .pinf) (whole (-5) 0, whole (-3) 0), .iv (.ninf, whole 5 0), .ok⟩,
   ⟨787, .div (whole (-15) 0, .pinf) (whole 3 0, whole 5 0), .iv (whole (-5) 0, .pinf), .ok⟩,
   ⟨789, .div (whole (-15) 0, .pinf) (.ninf, whole (-3) 0), .iv (.ninf, whole 5 0), .ok⟩,
   ⟨791, .div (whole (-15) 0, .pinf) (whole 3 0, .pinf), .iv (whole (-5) 0, .pinf), .ok⟩,
   ⟨793, .div (whole (-15) 0, .pinf) (whole 0 0, whole 0 0), .iv (.nan, .nan), .raised .valueError⟩,
   ⟨795, .div (whole (-15) 0, .pinf) (whole (-3) 0, whole 0 0), .iv (.ninf, .pinf), .raised .valueError⟩,
   ⟨797, .div (whole (-15) 0, .pinf) (whole 0 0, whole 0 0), .iv (.nan, .nan), .raised .valueError⟩,
   ⟨799, .div (whole (-15) 0, .pinf) (whole (-3) 0, whole 0 0), .iv (.ninf, .pinf), .raised .valueError⟩,
   ⟨801, .div (whole (-15) 0, .pinf) (whole (-3) 0, whole 3 0), .iv (.ninf, .pinf), .raised .valueError⟩,
   ⟨803, .div (whole (-15) 0, .pinf) (whole 0 0, whole 3 0), .iv (.ninf, .pinf), .raised .valueError⟩,
   ⟨805, .div (whole (-15) 0, .pinf) (.ninf, whole 0 0), .iv (.ninf, .pinf), .raised .valueError⟩,
   ⟨807, .div (whole (-15) 0, .pinf) (whole 0 0, whole 3 0), .iv (.ninf, .pinf), .raised .valueError⟩,
   ⟨809, .div (whole (-15) 0, .pinf) (.ninf, whole 0 0), .iv (.ninf, .pinf), .raised .valueError⟩,
   ⟨811, .div (whole (-15) 0, .pinf) (.ninf, whole 3 0), .iv (.ninf, .pinf), .raised .valueError⟩,
   ⟨813, .div (whole (-15) 0, .pinf) (whole (-3) 0, .pinf), .iv (.ninf, .pinf), .raised .valueError⟩,
   ⟨815, .div (whole (-15) 0, .pinf) (whole 0 0, .pinf), .iv (.ninf, .pinf), .raised .valueError⟩,
   ⟨817, .div (whole (-15) 0, .pinf) (whole 0 0, .pinf), .iv (.ninf, .pinf), .raised .valueError⟩,
   ⟨819, .div (whole (-15) 0, .pinf) (.ninf, .pinf), .iv (.ninf, .pinf), .raised .valueError⟩,
   ⟨821, .div (whole 15 0, .pinf) (whole (-5) 0, whole (-3) 0), .iv (.ninf, whole (-3) 0), .ok⟩,
   ⟨823, .div (whole 15 0, .pinf) (whole 3 0, whole 5 0), .iv (whole 3 0, .pinf), .ok⟩,
   ⟨825, .div (whole 15 0, .pinf) (.ninf, whole (-3) 0), .iv (.ninf, whole 0 0), .ok⟩,
   ⟨827, .div (whole 15 0, .pinf) (whole 3 0, .pinf), .iv (whole 0 0, .pinf), .ok⟩,
   ⟨829, .div (whole 15 0, .pinf) (whole 0 0, whole 0 0), .iv (.nan, .nan), .raised .valueError⟩,
   ⟨831, .div (whole 15 0, .pinf) (whole (-3) 0, whole 0 0), .iv (.ninf, whole (-5) 0), .raised .valueError⟩,
   ⟨833, .div (whole 15 0, .pinf) (whole 0 0, whole 0 0), .iv (.nan, .nan), .raised .valueError⟩,
   ⟨835, .div (whole 15 0, .pinf) (whole (-3) 0, whole 0 0), .iv (.ninf, whole (-5) 0), .raised .valueError⟩,
   ⟨837, .div (whole 15 0, .pinf) (whole (-3) 0, whole 3 0), .iv (.ninf, .pinf), .raised .valueError⟩,
   ⟨839, .div (whole 15 0, .pinf) (whole 0 0, whole 3 0), .iv (whole 5 0, .pinf), .raised .valueError⟩,
   ⟨841, .div (whole 15 0, .pinf) (.ninf, whole 0 0), .iv (.ninf, whole 0 0), .raised .valueError⟩,
   ⟨843, .div (whole 15 0, .pinf) (whole 0 0, whole 3 0), .iv (whole 5 0, .pinf), .raised .valueError⟩,
   ⟨845, .div (whole 15 0, .pinf) (.ninf, whole 0 0), .iv (.ninf, whole 0 0), .raised .valueError⟩,
   ⟨847, .div (whole 15 0, .pinf) (.ninf, whole 3 0), .iv (.ninf, .pinf), .raised .valueError⟩,
   ⟨849, .div (whole 15 0, .pinf) (whole (-3) 0, .pinf), .iv (.ninf, .pinf), .raised .valueError⟩,
   ⟨851, .div (whole 15 0, .pinf) (whole 0 0, .pinf), .iv (whole 0 0, .pinf), .raised .valueError⟩,
   ⟨853, .div (whole 15 0, .pinf) (whole 0 0, .pinf), .iv (whole 0 0, .pinf), .raised .valueError⟩,
   ⟨855, .div (whole 15 0, .pinf) (.ninf, .pinf), .iv (.ninf, .pinf), .raised .valueError⟩,
   ⟨857, .div (whole (-30) 0, whole 0 0) (whole (-5) 0, whole (-3) 0), .iv (whole 0 0, whole 10 0), .ok⟩,
   ⟨859, .div (whole (-30) 0, whole 0 0) (whole 3 0, whole 5 0), .iv (whole (-10) 0, whole 0 0), .ok⟩,
   ⟨861, .div (whole (-30) 0, whole 0 0) (.ninf, whole (-3) 0), .iv (whole 0 0, whole 10 0), .ok⟩,
   ⟨863, .div (whole (-30) 0, whole 0 0) (whole 3 0, .pinf), .iv (whole (-10) 0, whole 0 0), .ok⟩,
   ⟨865, .div (whole (-30) 0, whole 0 0) (whole 0 0, whole 0 0), .iv (.nan, .nan), .raised .valueError⟩,
   ⟨867, .div (whole (-30) 0, whole 0 0) (whole (-3) 0, whole 0 0), .iv (whole 0 0, .pinf), .raised .valueError⟩,
   ⟨869, .div (whole (-30) 0, whole 0 0) (whole 0 0, whole 0 0), .iv (.nan, .nan), .raised .valueError⟩,
   ⟨871, .div (whole (-30) 0, whole 0 0) (whole (-3) 0, whole 0 0), .iv (whole 0 0, .pinf), .raised .valueError⟩,
   ⟨873, .div (whole (-30) 0, whole 0 0) (whole (-3) 0, whole 3 0), .iv (.ninf, .pinf), .raised .valueError⟩,
   ⟨875, .div (whole (-30) 0, whole 0 0) (whole 0 0, whole 3 0), .iv (.ninf, whole 0 0), .raised .valueError⟩,
   ⟨877, .div (whole (-30) 0, whole 0 0) (.ninf, whole 0 0), .iv (whole 0 0, .pinf), .raised .valueError⟩,
   ⟨879, .div (whole (-30) 0, whole 0 0) (whole 0 0, whole 3 0), .iv (.ninf, whole 0 0), .raised .valueError⟩,
   ⟨881, .div (whole (-30) 0, whole 0 0) (.ninf, whole 0 0), .iv (whole 0 0, .pinf), .raised .valueError⟩,
   ⟨883, .div (whole (-30) 0, whole 0 0) (.ninf, whole 3 0), .iv (.ninf, .pinf), .raised .valueError⟩,
   ⟨885, .div (whole (-30) 0, whole 0 0) (whole (-3) 0, .pinf), .iv (.ninf, .pinf), .raised .valueError⟩,
   ⟨887, .div (whole (-30) 0, whole 0 0) (whole 0 0, .pinf), .iv (.ninf, whole 0 0), .raised .valueError⟩,
   ⟨889, .div (whole (-30) 0, whole 0 0) (whole 0 0, .pinf), .iv (.ninf, whole 0 0), .raised .valueError⟩,
   ⟨891, .div (whole (-30) 0, whole 0 0) (.ninf, .pinf), .iv (.ninf, .pinf), .raised .valueError⟩,
   ⟨893, .div (whole (-30) 0, whole 0 0) (whole (-5) 0, whole (-3) 0), .iv (whole 0 0, whole 10 0), .ok⟩,
   ⟨895, .div (whole (-30) 0, whole 0 0) (whole 3 0, whole 5 0), .iv (whole (-10) 0, whole 0 0), .ok⟩,
   ⟨897, .div (whole (-30) 0, whole 0 0) (.ninf, whole (-3) 0), .iv (whole 0 0, whole 10 0), .ok⟩,
   ⟨899, .div (whole (-30) 0, whole 0 0) (whole 3 0, .pinf), .iv (whole (-10) 0, whole 0 0), .ok⟩,
   ⟨901, .div (whole (-30) 0, whole 0 0) (whole 0 0, whole 0 0), .iv (.nan, .nan), .raised .valueError⟩,
   ⟨903, .div (whole (-30) 0, whole 0 0) (whole (-3) 0, whole 0 0), .iv (whole 0 0, .pinf), .raised .valueError⟩,
   ⟨905, .div (whole (-30) 0, whole 0 0) (whole 0 0, whole 0 0), .iv (.nan, .nan), .raised .valueError⟩,
   ⟨907, .div (whole (-30) 0, whole 0 0) (whole (-3) 0, whole 0 0), .iv (whole 0 0, .pinf), .raised .valueError⟩,
   ⟨909, .div (whole (-30) 0, whole 0 0) (whole (-3) 0, whole 3 0), .iv (.ninf, .pinf), .raised .valueError⟩,
   ⟨911, .div (whole (-30) 0, whole 0 0) (whole 0 0, whole 3 0), .iv (.ninf, whole 0 0), .raised .valueError⟩,
   ⟨913, .div (whole (-30) 0, whole 0 0) (.ninf, whole 0 0), .iv (whole 0 0, .pinf), .raised .valueError⟩,
   ⟨915, .div (whole (-30) 0, whole 0 0) (whole 0 0, whole 3 0), .iv (.ninf, whole 0 0), .raised .valueError⟩,
   ⟨917, .div (whole (-30) 0, whole 0 0) (.ninf, whole 0 0), .iv (whole 0 0, .pinf), .raised .valueError⟩,
   ⟨919, .div (whole (-30) 0, whole 0 0) (.ninf, whole 3 0), .iv (.ninf, .pinf), .raised .valueError⟩,
   ⟨921, .div (whole (-30) 0, whole 0 0) (whole (-3) 0, .pinf), .iv (.ninf, .pinf), .raised .valueError⟩,
   ⟨923, .div (whole (-30) 0, whole 0 0) (whole 0 0, .pinf), .iv (.ninf, whole 0 0), .raised .valueError⟩,
   ⟨925, .div (whole (-30) 0, whole 0 0) (whole 0 0, .pinf), .iv (.ninf, whole 0 0), .raised .valueError⟩,
   ⟨927, .div (whole (-30) 0, whole 0 0) (.ninf, .pinf), .iv (.ninf, .pinf), .raised .valueError⟩,
   ⟨929, .div (whole 0 0, whole 30 0) (whole (-5) 0, whole (-3) 0), .iv (whole (-10) 0, whole 0 0), .ok⟩,
   ⟨931, .div (whole 0 0, whole 30 0) (whole 3 0, whole 5 0), .iv (whole 0 0, whole 10 0), .ok⟩,
   ⟨933, .div (whole 0 0, whole 30 0) (.ninf, whole (-3) 0), .iv (whole (-10) 0, whole 0 0), .ok⟩,
   ⟨935, .div (whole 0 0, whole 30 0) (whole 3 0, .pinf), .iv (whole 0 0, whole 10 0), .ok⟩,
   ⟨937, .div (whole 0 0, whole 30 0) (whole 0 0, whole 0 0), .iv (.nan, .nan), .raised .valueError⟩,
   ⟨939, .div (whole 0 0, whole 30 0) (whole (-3) 0, whole 0 0), .iv (.ninf, whole 0 0), .raised .valueError⟩,
   ⟨941, .div (whole 0 0, whole 30 0) (whole 0 0, whole 0 0), .iv (.nan, .nan), .raised .valueError⟩,
   ⟨943, .div (whole 0 0, whole 30 0) (whole (-3) 0, whole 0 0), .iv (.ninf, whole 0 0), .raised .valueError⟩,
   ⟨945, .div (whole 0 0, whole 30 0) (whole (-3) 0, whole 3 0), .iv (.ninf, .pinf), .raised .valueError⟩,
   ⟨947, .div (whole 0 0, whole 30 0) (whole 0 0, whole 3 0), .iv (whole 0 0, .pinf), .raised .valueError⟩,
   ⟨949, .div (whole 0 0, whole 30 0) (.ninf, whole 0 0), .iv (.ninf, whole 0 0), .raised .valueError⟩,
   ⟨951, .div (whole 0 0, whole 30 0) (whole 0 0, whole 3 0), .iv (whole 0 0, .pinf), .raised .valueError⟩,
   ⟨953, .div (whole 0 0, whole 30 0) (.ninf, whole 0 0), .iv (.ninf, whole 0 0), .raised .valueError⟩]

theorem elem_div_2_agree : ∀ r ∈ elem_div_2, r.agrees libm = true := by decide +kernel

/-- libieeep1788_elem.py, `TestCase_minimal_div_test`. -/
def elem_div_3 : List Run :=
  [⟨955, .div (whole 0 0, whole 30 0) (.ninf, whole 3 0), .iv (.ninf, .pinf), .raised .valueError⟩,
   ⟨957, .div (whole 0 0, whole 30 0) (whole (-3) 0, .pinf), .iv (.ninf, .pinf), .raised .valueError⟩,
   ⟨959, .div (whole 0 0, whole 30 0) (whole 0 0, .pinf), .iv (whole 0 0, .pinf), .raised .valueError⟩,
   ⟨961, .div (whole 0 0, whole 30 0) (whole 0 0, .pinf), .iv (whole 0 0, .pinf), .raised .valueError⟩,
   ⟨963, .div (whole 0 0, whole 30 0) (.ninf, .pinf), .iv (.ninf, .pinf), .raised .valueError⟩,
   ⟨965, .div (whole 0 0, whole 30 0) (whole (-5) 0, whole (-3) 0), .iv (whole (-10) 0, whole 0 0), .ok⟩,
   ⟨967, .div (whole 0 0, whole 30 0) (whole 3 0, whole 5 0), .iv (whole 0 0, whole 10 0), .ok⟩,
   ⟨969, .div (whole 0 0, whole 30 0) (.ninf, whole (-3) 0), .iv (whole (-10) 0, whole 0 0), .ok⟩,
   ⟨971, .div (whole 0 0, whole 30 0) (whole 3 0, .pinf), .iv (whole 0 0, whole 10 0), .ok⟩,
   ⟨973, .div (whole 0 0, whole 30 0) (whole 0 0, whole 0 0), .iv (.nan, .nan), .raised .valueError⟩,
   ⟨975, .div (whole 0 0, whole 30 0) (whole (-3) 0, whole 0 0), .iv (.ninf, whole 0 0), .raised .valueError⟩,
   ⟨977, .div (whole 0 0, whole 30 0) (whole 0 0, whole 0 0), .iv (.nan, .nan), .raised .valueError⟩,
   ⟨979, .div (whole 0 0, whole 30 0) (whole (-3) 0, whole 0 0), .iv (.ninf, whole 0 0), .raised .valueError⟩,
   ⟨981, .div (whole 0 0, whole 30 0) (whole (-3) 0, whole 3 0), .iv (.ninf, .pinf), .raised .valueError⟩,
   ⟨983, .div (whole 0 0, whole 30 0) (whole 0 0, whole 3 0), .iv (whole 0 0, .pinf), .raised .valueError⟩,
   ⟨985, .div (whole 0 0, whole 30 0) (.ninf, whole 0 0), .iv (.ninf, whole 0 0), .raised .valueError⟩,
   ⟨987, .div (whole 0 0, whole 30 0) (whole 0 0, whole 3 0), .iv (whole 0 0, .pinf), .raised .valueError⟩,
   ⟨989, .div (whole 0 0, whole 30 0) (.ninf, whole 0 0), .iv (.ninf, whole 0 0), .raised .valueError⟩,
   ⟨991, .div (whole 0 0, whole 30 0) (.ninf, whole 3 0), .iv (.ninf, .pinf), .raised .valueError⟩,
   ⟨993, .div (whole 0 0, whole 30 0) (whole (-3) 0, .pinf), .iv (.ninf, .pinf), .raised .valueError⟩,
   ⟨995, .div (whole 0 0, whole 30 0) (whole 0 0, .pinf), .iv (whole 0 0, .pinf), .raised .valueError⟩,
   ⟨997, .div (whole 0 0, whole 30 0) (whole 0 0, .pinf), .iv (whole 0 0, .pinf), .raised .valueError⟩,
   ⟨999, .div (whole 0 0, whole 30 0) (.ninf, .pinf), .iv (.ninf, .pinf), .raised .valueError⟩,
   ⟨1001, .div (.ninf, whole 0 0) (whole (-5) 0, whole (-3) 0), .iv (whole 0 0, .pinf), .ok⟩,
   ⟨1003, .div (.ninf, whole 0 0) (whole 3 0, whole 5 0), .iv (.ninf, whole 0 0), .ok⟩,
   ⟨1005, .div (.ninf, whole 0 0) (.ninf, whole (-3) 0), .iv (whole 0 0, .pinf), .got (.nan) (.nan)⟩,
   ⟨1007, .div (.ninf, whole 0 0) (whole 3 0, .pinf), .iv (.ninf, whole 0 0), .ok⟩,
   ⟨1009, .div (.ninf, whole 0 0) (whole 0 0, whole 0 0), .iv (.nan, .nan), .raised .valueError⟩,
   ⟨1011, .div (.ninf, whole 0 0) (whole (-3) 0, whole 0 0), .iv (whole 0 0, .pinf), .raised .valueError⟩,
   ⟨1013, .div (.ninf, whole 0 0) (whole 0 0, whole 0 0), .iv (.nan, .nan), .raised .valueError⟩,
   ⟨1015, .div (.ninf, whole 0 0) (whole (-3) 0, whole 0 0), .iv (whole 0 0, .pinf), .raised .valueError⟩,
   ⟨1017, .div (.ninf, whole 0 0) (whole (-3) 0, whole 3 0), .iv (.ninf, .pinf), .raised .valueError⟩,
   ⟨1019, .div (.ninf, whole 0 0) (whole 0 0, whole 3 0), .iv (.ninf, whole 0 0), .raised .valueError⟩,
   ⟨1021, .div (.ninf, whole 0 0) (.ninf, whole 0 0), .iv (whole 0 0, .pinf), .raised .valueError⟩,
   ⟨1023, .div (.ninf, whole 0 0) (whole 0 0, whole 3 0), .iv (.ninf, whole 0 0), .raised .valueError⟩,
   ⟨1025, .div (.ninf, whole 0 0) (.ninf, whole 0 0), .iv (whole 0 0, .pinf), .raised .valueError⟩,
   ⟨1027, .div (.ninf, whole 0 0) (.ninf, whole 3 0), .iv (.ninf, .pinf), .raised .valueError⟩,
   ⟨1029, .div (.ninf, whole 0 0) (whole (-3) 0, .pinf), .iv (.ninf, .pinf), .raised .valueError⟩,
   ⟨1031, .div (.ninf, whole 0 0) (whole 0 0, .pinf), .iv (.ninf, whole 0 0), .raised .valueError⟩,
   ⟨1033, .div (.ninf, whole 0 0) (whole 0 0, .pinf), .iv (.ninf, whole 0 0), .raised .valueError⟩,
   ⟨1035, .div (.ninf, whole 0 0) (.ninf, .pinf), .iv (.ninf, .pinf), .raised .valueError⟩,
   ⟨1037, .div (.ninf, whole 0 0) (whole (-5) 0, whole (-3) 0), .iv (whole 0 0, .pinf), .ok⟩,
   ⟨1039, .div (.ninf, whole 0 0) (whole 3 0, whole 5 0), .iv (.ninf, whole 0 0), .ok⟩,
   ⟨1041, .div (.ninf, whole 0 0) (.ninf, whole (-3) 0), .iv (whole 0 0, .pinf), .got (.nan) (.nan)⟩,
   ⟨1043, .div (.ninf, whole 0 0) (whole 3 0, .pinf), .iv (.ninf, whole 0 0), .ok⟩,
   ⟨1045, .div (.ninf, whole 0 0) (whole 0 0, whole 0 0), .iv (.nan, .nan), .raised .valueError⟩,
   ⟨1047, .div (.ninf, whole 0 0) (whole (-3) 0, whole 0 0), .iv (whole 0 0, .pinf), .raised .valueError⟩,
   ⟨1049, .div (.ninf, whole 0 0) (whole 0 0, whole 0 0), .iv (.nan, .nan), .raised .valueError⟩,
   ⟨1051, .div (.ninf, whole 0 0) (whole (-3) 0, whole 0 0), .iv (whole 0 0, .pinf), .raised .valueError⟩,
   ⟨1053, .div (.ninf, whole 0 0) (whole (-3) 0, whole 3 0), .iv (.ninf, .pinf), .raised .valueError⟩,
   ⟨1055, .div (.ninf, whole 0 0) (whole 0 0, whole 3 0), .iv (.ninf, whole 0 0), .raised .valueError⟩,
   ⟨1057, .div (.ninf, whole 0 0) (.ninf, whole 0 0), .iv (whole 0 0, .pinf), .raised .valueError⟩,
   ⟨1059, .div (.ninf, whole 0 0) (whole 0 0, whole 3 0), .iv (.ninf, whole 0 0), .raised .valueError⟩,
   ⟨1061, .div (.ninf, whole 0 0) (.ninf, whole 0 0), .iv (whole 0 0, .pinf), .raised .valueError⟩,
   ⟨1063, .div (.ninf, whole 0 0) (.ninf, whole 3 0), .iv (.ninf, .pinf), .raised .valueError⟩,
   ⟨1065, .div (.ninf, whole 0 0) (whole (-3) 0, .pinf), .iv (.ninf, .pinf), .raised .valueError⟩,
   ⟨1067, .div (.ninf, whole 0 0) (whole 0 0, .pinf), .iv (.ninf, whole 0 0), .raised .valueError⟩,
   ⟨1069, .div (.ninf, whole 0 0) (whole 0 0, .pinf), .iv (.ninf, whole 0 0), .raised .valueError⟩,
   ⟨1071, .div (.ninf, whole 0 0) (.ninf, .pinf), .iv (.ninf, .pinf), .raised .valueError⟩,
   ⟨1073, .div (whole 0 0, .pinf) (whole (-5) 0, whole (-3) 0), .iv (.ninf, whole 0 0), .ok⟩,
   ⟨1075, .div (whole 0 0, .pinf) (whole 3 0, whole 5 0), .iv (whole 0 0, .pinf), .ok⟩,
   ⟨1077, .div (whole 0 0, .pinf) (.ninf, whole (-3) 0), .iv (.ninf, whole 0 0), .ok⟩,
   ⟨1079, .div (whole 0 0, .pinf) (whole 3 0, .pinf), .iv (whole 0 0, .pinf), .ok⟩,
   ⟨1081, .div (whole 0 0, .pinf) (whole 0 0, whole 0 0), .iv (.nan, .nan), .raised .valueError⟩,
   ⟨1083, .div (whole 0 0, .pinf) (whole (-3) 0, whole 0 0), .iv (.ninf, whole 0 0), .raised .valueError⟩,
   ⟨1085, .div (whole 0 0, .pinf) (whole 0 0, whole 0 0), .iv (.nan, .nan), .raised .valueError⟩,
   ⟨1087, .div (whole 0 0, .pinf) (whole (-3) 0, whole 0 0), .iv (.ninf, whole 0 0), .raised .valueError⟩,
   ⟨1089, .div (whole 0 0, .pinf) (whole (-3) 0, whole 3 0), .iv (.ninf, .pinf), .raised .valueError⟩,
   ⟨1091, .div (whole 0 0, .pinf) (whole 0 0, whole 3 0), .iv (whole 0 0, .pinf), .raised .valueError⟩,
   ⟨1093, .div (whole 0 0, .pinf) (.ninf, whole 0 0), .iv (.ninf, whole 0 0), .raised .valueError⟩,
   ⟨1095, .div (whole 0 0, .pinf) (whole 0 0, whole 3 0), .iv (whole 0 0, .pinf), .raised .valueError⟩,
   ⟨1097, .div (whole 0 0, .pinf) (.ninf, whole 0 0), .iv (.ninf, whole 0 0), .raised .valueError⟩,
   ⟨1099, .div (whole 0 0, .pinf) (.ninf, whole 3 0), .iv (.ninf, .pinf), .raised .valueError⟩,
   ⟨1101, .div (whole 0 0, .pinf) (whole (-3) 0, .pinf), .iv (.ninf, .pinf), .raised .valueError⟩,
   ⟨1103, .div (whole 0 0, .pinf) (whole 0 0, .pinf), .iv (whole 0 0, .pinf), .raised .valueError⟩,
   ⟨1105, .div (whole 0 0, .pinf) (whole 0 0, .pinf), .iv (whole 0 0, .pinf), .raised .valueError⟩,
   ⟨1107, .div (whole 0 0, .pinf) (.ninf, .pinf), .iv (.ninf, .pinf), .raised .valueError⟩,
   ⟨1109, .div (whole 0 0, .pinf) (whole (-5) 0, whole (-3) 0), .iv (.ninf, whole 0 0), .ok⟩,
   ⟨1111, .div (whole 0 0, .pinf) (whole 3 0, whole 5 0), .iv (whole 0 0, .pinf), .ok⟩,
   ⟨1113, .div (whole 0 0, .pinf) (.ninf, whole (-3) 0), .iv (.ninf, whole 0 0), .ok⟩,
   ⟨1115, .div (whole 0 0, .pinf) (whole 3 0, .pinf), .iv (whole 0 0, .pinf), .ok⟩,
   ⟨1117, .div (whole 0 0, .pinf) (whole 0 0, whole 0 0), .iv (.nan, .nan), .raised .valueError⟩,
   ⟨1119, .div (whole 0 0, .pinf) (whole (-3) 0, whole 0 0), .iv (.ninf, whole 0 0), .raised .valueError⟩,
   ⟨1121, .div (whole 0 0, .pinf) (whole 0 0, whole 0 0), .iv (.nan, .nan), .raised .valueError⟩,
   ⟨1123, .div (whole 0 0, .pinf) (whole (-3) 0, whole 0 0), .iv (.ninf, whole 0 0), .raised .valueError⟩,
   ⟨1125, .div (whole 0 0, .pinf) (whole (-3) 0, whole 3 0), .iv (.ninf, .pinf), .raised .valueError⟩,
   ⟨1127, .div (whole 0 0, .pinf) (whole 0 0, whole 3 0), .iv (whole 0 0, .pinf), .raised .valueError⟩,
   ⟨1129, .div (whole 0 0, .pinf) (.ninf, whole 0 0), .iv (.ninf, whole 0 0), .raised .valueError⟩,
   ⟨1131, .div (whole 0 0, .pinf) (whole 0 0, whole 3 0), .iv (whole 0 0, .pinf), .raised .valueError⟩,
   ⟨1133, .div (whole 0 0, .pinf) (.ninf, whole 0 0), .iv (.ninf, whole 0 0), .raised .valueError⟩,
   ⟨1135, .div (whole 0 0, .pinf) (.ninf, whole 3 0), .iv (.ninf, .pinf), .raised .valueError⟩,
   ⟨1137, .div (whole 0 0, .pinf) (whole (-3) 0, .pinf), .iv (.ninf, .pinf), .raised .valueError⟩,
   ⟨1139, .div (whole 0 0, .pinf) (whole 0 0, .pinf), .iv (whole 0 0, .pinf), .raised .valueError⟩,
   ⟨1141, .div (whole 0 0, .pinf) (whole 0 0, .pinf), .iv (whole 0 0, .pinf), .raised .valueError⟩,
   ⟨1143, .div (whole 0 0, .pinf) (.ninf, .pinf), .iv (.ninf, .pinf), .raised .valueError⟩,
   ⟨1145, .div (whole (-2) 0, whole (-1) 0) (whole (-10) 0, whole (-3) 0), .iv (bin 7205759403792793 56, bin 3002399751580331 52), .ok⟩,
   ⟨1147, .div (whole (-2) 0, whole (-1) 0) (whole 0 0, whole 10 0), .iv (.ninf, bin (-7205759403792793) 56), .raised .valueError⟩,
   ⟨1149, .div (whole (-2) 0, whole (-1) 0) (whole 0 0, whole 10 0), .iv (.ninf, bin (-7205759403792793) 56), .raised .valueError⟩,
   ⟨1151, .div (whole (-1) 0, whole 2 0) (whole 10 0, .pinf), .iv (bin (-3602879701896397) 55, bin 3602879701896397 54), .ok⟩,
   ⟨1153, .div (whole 1 0, whole 3 0) (.ninf, whole (-10) 0), .iv (bin (-1351079888211149) 52, whole 0 0), .ok⟩,
   ⟨1155, .div (.ninf, whole (-1) 0) (whole 1 0, whole 3 0), .iv (.ninf, bin (-6004799503160661) 54), .ok⟩]

theorem elem_div_3_agree : ∀ r ∈ elem_div_3, r.agrees libm = true := by decide +kernel

/-- libieeep1788_elem.py, `TestCase_minimal_exp_test`. -/
def elem_exp : List Run :=
  [⟨1254, .exp (.nan, .nan), .iv (.nan, .nan), .got (.nan) (.nan)⟩,
   ⟨1256, .exp (.ninf, whole 0 0), .iv (whole 0 0, whole 1 0), .got (dec (-494066) 329) (whole 1 0)⟩,
   ⟨1258, .exp (.ninf, whole 0 0), .iv (whole 0 0, whole 1 0), .got (dec (-494066) 329) (whole 1 0)⟩,
   ⟨1260, .exp (whole 0 0, .pinf), .iv (whole 1 0, .pinf), .got (whole 1 0) (whole 11031285289538837559043422857199097325775143968331419360881725915595109056700851722499691706443839096611462668458652408355421044508468016155485051655190553135601106453006061487893962880235676493612118065357208251953125 303)⟩,
   ⟨1262, .exp (whole 0 0, .pinf), .iv (whole 1 0, .pinf), .got (whole 1 0) (whole 11031285289538837559043422857199097325775143968331419360881725915595109056700851722499691706443839096611462668458652408355421044508468016155485051655190553135601106453006061487893962880235676493612118065357208251953125 303)⟩,
   ⟨1264, .exp (.ninf, .pinf), .iv (whole 0 0, .pinf), .got (dec (-494066) 329) (whole 11031285289538837559043422857199097325775143968331419360881725915595109056700851722499691706443839096611462668458652408355421044508468016155485051655190553135601106453006061487893962880235676493612118065357208251953125 303)⟩,
   ⟨1266, .exp (.ninf, bin 390207173010335 39), .iv (whole 0 0, .pinf), .got (.pinf) (.pinf)⟩,
   ⟨1268, .exp (bin 390207173010335 39, bin 390207173010335 39), .iv (whole 9007199254740991 971, .pinf), .got (.pinf) (.pinf)⟩,
   ⟨1270, .exp (whole 0 0, bin 195103586505167 38), .iv (whole 1 0, whole 9007199254725419 971), .got (whole 1 0) (whole 11031285289538837559043422857199097325775143968331419360881725915595109056700851722499691706443839096611462668458652408355421044508468016155485051655190553135601106453006061487893962880235676493612118065357208251953125 303)⟩,
   ⟨1272, .exp (whole 0 0, bin 195103586505167 38), .iv (whole 1 0, whole 9007199254725419 971), .got (whole 1 0) (whole 11031285289538837559043422857199097325775143968331419360881725915595109056700851722499691706443839096611462668458652408355421044508468016155485051655190553135601106453006061487893962880235676493612118065357208251953125 303)⟩,
   ⟨1274, .exp (bin (-6231120794008787) 43, bin 195103586505167 38), .iv (bin 4503599627370107 1074, whole 9007199254725419 971), .ok⟩,
   ⟨1276, .exp (bin (-6231120794008787) 44, bin 195103586505167 38), .iv (bin 9007199254740603 564, whole 9007199254725419 971), .ok⟩,
   ⟨1278, .exp (bin (-6231120794008787) 44, whole 0 0), .iv (bin 9007199254740603 564, whole 1 0), .got (dec 149167 159) (whole 1 0)⟩,
   ⟨1280, .exp (bin (-6231120794008787) 44, whole 0 0), .iv (bin 9007199254740603 564, whole 1 0), .got (dec 149167 159) (whole 1 0)⟩,
   ⟨1282, .exp (bin (-6231120794008787) 44, whole 1 0), .iv (bin 9007199254740603 564, bin 3060513257434037 50), .ok⟩,
   ⟨1284, .exp (whole 1 0, whole 5 0), .iv (bin 6121026514868073 51, bin 326363988296505 41), .got (dec 271828 5) (dec 148413 3)⟩,
   ⟨1286, .exp (bin (-3740158532571577) 50, bin 4069801476752429 51), .iv (bin 5200136119745119 57, bin 6861578759607749 50), .ok⟩,
   ⟨1288, .exp (bin 1723830999229735 51, bin 6954774044934185 46), .iv (bin 2420846759166101 50, whole 3380804516319451 91), .got (dec 215014 5) (whole 60903184930793941020965576171875 37)⟩,
   ⟨1290, .exp (bin 6614824233729337 49, bin 7315664758876059 48), .iv (bin 2178237390177363 34, bin 1588196682678307 13), .got (whole 126790 0) (whole 189328125 10)⟩]

theorem elem_exp_agree : ∀ r ∈ elem_exp, r.agrees libm = true := by decide +kernel

/-- libieeep1788_elem.py, `TestCase_minimal_log_test`. -/
def elem_log : List Run :=
  [⟨1322, .log (.nan, .nan), .iv (.nan, .nan), .got (.nan) (.nan)⟩,
   ⟨1324, .log (.ninf, whole 0 0), .iv (.nan, .nan), .got (.ninf) (.ninf)⟩,
   ⟨1326, .log (.ninf, whole 0 0), .iv (.nan, .nan), .got (.ninf) (.ninf)⟩,
   ⟨1328, .log (whole 0 0, whole 1 0), .iv (.ninf, whole 0 0), .ok⟩,
   ⟨1330, .log (whole 0 0, whole 1 0), .iv (.ninf, whole 0 0), .ok⟩,
   ⟨1332, .log (whole 1 0, .pinf), .iv (whole 0 0, .pinf), .ok⟩,
   ⟨1334, .log (whole 0 0, .pinf), .iv (.ninf, .pinf), .ok⟩,
   ⟨1336, .log (whole 0 0, .pinf), .iv (.ninf, .pinf), .ok⟩,
   ⟨1338, .log (.ninf, .pinf), .iv (.ninf, .pinf), .ok⟩,
   ⟨1340, .log (whole 0 0, whole 9007199254740991 971), .iv (.ninf, bin 390207173010335 39), .ok⟩,
   ⟨1342, .log (whole 0 0, whole 9007199254740991 971), .iv (.ninf, bin 390207173010335 39), .ok⟩,
   ⟨1344, .log (whole 1 0, whole 9007199254740991 971), .iv (whole 0 0, bin 390207173010335 39), .ok⟩,
   ⟨1346, .log (bin 1 1074, whole 9007199254740991 971), .iv (bin (-1637041030519921) 41, bin 390207173010335 39), .ok⟩,
   ⟨1348, .log (bin 1 1074, whole 1 0), .iv (bin (-1637041030519921) 41, whole 0 0), .ok⟩,
   ⟨1350, .log (bin 6121026514868073 51, bin 6121026514868073 51), .iv (bin 9007199254740991 53, whole 1 0), .ok⟩,
   ⟨1352, .log (bin 3060513257434037 50, bin 3060513257434037 50), .iv (whole 1 0, bin 4503599627370497 52), .ok⟩,
   ⟨1354, .log (bin 1 1074, bin 3060513257434037 50), .iv (bin (-1637041030519921) 41, bin 4503599627370497 52), .ok⟩,
   ⟨1356, .log (bin 6121026514868073 51, whole 32 0), .iv (bin 9007199254740991 53, bin 1951035865051675 49), .ok⟩,
   ⟨1358, .log (bin 3602879701896397 55, bin 7 1), .iv (bin (-2592480341699211) 50, bin 176310713690603 47), .ok⟩,
   ⟨1360, .log (bin 7656119366529843 52, whole 8024225258572591 46), .iv (bin 298717149219481 49, bin 4820682020677617 46), .ok⟩,
   ⟨1362, .log (bin 7575635122853985 41, bin 2236962133333331 25), .iv (bin 4585046767509091 49, bin 5070832401536693 48), .ok⟩,
   ⟨1364, .log (bin 1 1074, whole 9007199254740991 971), .iv (bin (-1637041030519921) 41, bin 390207173010335 39), .ok⟩]

theorem elem_log_agree : ∀ r ∈ elem_log, r.agrees libm = true := by decide +kernel

/-- libieeep1788_elem.py, `TestCase_minimal_mul_test`. -/
def elem_mul : List Run :=
  [⟨232, .mul (.nan, .nan) (.nan, .nan), .iv (.nan, .nan), .got (.nan) (.nan)⟩,
   ⟨234, .mul (whole (-1) 0, whole 1 0) (.nan, .nan), .iv (.nan, .nan), .got (.nan) (.nan)⟩,
   ⟨236, .mul (.nan, .nan) (whole (-1) 0, whole 1 0), .iv (.nan, .nan), .got (.nan) (.nan)⟩,
   ⟨238, .mul (.nan, .nan) (.ninf, .pinf), .iv (.nan, .nan), .got (.nan) (.nan)⟩,
   ⟨240, .mul (.ninf, .pinf) (.nan, .nan), .iv (.nan, .nan), .got (.nan) (.nan)⟩,
   ⟨242, .mul (whole 0 0, whole 0 0) (.nan, .nan), .iv (.nan, .nan), .got (.nan) (.nan)⟩,
   ⟨244, .mul (.nan, .nan) (whole 0 0, whole 0 0), .iv (.nan, .nan), .got (.nan) (.nan)⟩,
   ⟨246, .mul (whole 0 0, whole 0 0) (.nan, .nan), .iv (.nan, .nan), .got (.nan) (.nan)⟩,
   ⟨248, .mul (.nan, .nan) (whole 0 0, whole 0 0), .iv (.nan, .nan), .got (.nan) (.nan)⟩,
   ⟨250, .mul (.ninf, .pinf) (whole 0 0, whole 0 0), .iv (whole 0 0, whole 0 0), .got (.nan) (.nan)⟩,
   ⟨252, .mul (.ninf, .pinf) (whole 0 0, whole 0 0), .iv (whole 0 0, whole 0 0), .got (.nan) (.nan)⟩,
   ⟨254, .mul (.ninf, .pinf) (whole (-5) 0, whole (-1) 0), .iv (.ninf, .pinf), .ok⟩,
   ⟨256, .mul (.ninf, .pinf) (whole (-5) 0, whole 3 0), .iv (.ninf, .pinf), .ok⟩,
   ⟨258, .mul (.ninf, .pinf) (whole 1 0, whole 3 0), .iv (.ninf, .pinf), .ok⟩,
   ⟨260, .mul (.ninf, .pinf) (.ninf, whole (-1) 0), .iv (.ninf, .pinf), .ok⟩,
   ⟨262, .mul (.ninf, .pinf) (.ninf, whole 3 0), .iv (.ninf, .pinf), .ok⟩,
   ⟨264, .mul (.ninf, .pinf) (whole (-5) 0, .pinf), .iv (.ninf, .pinf), .ok⟩,
   ⟨266, .mul (.ninf, .pinf) (whole 1 0, .pinf), .iv (.ninf, .pinf), .ok⟩,
   ⟨268, .mul (.ninf, .pinf) (.ninf, .pinf), .iv (.ninf, .pinf), .ok⟩,
   ⟨270, .mul (whole 1 0, .pinf) (whole 0 0, whole 0 0), .iv (whole 0 0, whole 0 0), .ok⟩,
   ⟨272, .mul (whole 1 0, .pinf) (whole 0 0, whole 0 0), .iv (whole 0 0, whole 0 0), .ok⟩,
   ⟨274, .mul (whole 1 0, .pinf) (whole (-5) 0, whole (-1) 0), .iv (.ninf, whole (-1) 0), .ok⟩,
   ⟨276, .mul (whole 1 0, .pinf) (whole (-5) 0, whole 3 0), .iv (.ninf, .pinf), .ok⟩,
   ⟨278, .mul (whole 1 0, .pinf) (whole 1 0, whole 3 0), .iv (whole 1 0, .pinf), .ok⟩,
   ⟨280, .mul (whole 1 0, .pinf) (.ninf, whole (-1) 0), .iv (.ninf, whole (-1) 0), .ok⟩,
   ⟨282, .mul (whole 1 0, .pinf) (.ninf, whole 3 0), .iv (.ninf, .pinf), .ok⟩,
   ⟨284, .mul (whole 1 0, .pinf) (whole (-5) 0, .pinf), .iv (.ninf, .pinf), .ok⟩,
   ⟨286, .mul (whole 1 0, .pinf) (whole 1 0, .pinf), .iv (whole 1 0, .pinf), .ok⟩,
   ⟨288, .mul (whole 1 0, .pinf) (.ninf, .pinf), .iv (.ninf, .pinf), .ok⟩,
   ⟨290, .mul (whole (-1) 0, .pinf) (whole 0 0, whole 0 0), .iv (whole 0 0, whole 0 0), .ok⟩,
   ⟨292, .mul (whole (-1) 0, .pinf) (whole 0 0, whole 0 0), .iv (whole 0 0, whole 0 0), .ok⟩,
   ⟨294, .mul (whole (-1) 0, .pinf) (whole (-5) 0, whole (-1) 0), .iv (.ninf, whole 5 0), .ok⟩,
   ⟨296, .mul (whole (-1) 0, .pinf) (whole (-5) 0, whole 3 0), .iv (.ninf, .pinf), .ok⟩,
   ⟨298, .mul (whole (-1) 0, .pinf) (whole 1 0, whole 3 0), .iv (whole (-3) 0, .pinf), .ok⟩,
   ⟨300, .mul (whole (-1) 0, .pinf) (.ninf, whole (-1) 0), .iv (.ninf, .pinf), .ok⟩,
   ⟨302, .mul (whole (-1) 0, .pinf) (.ninf, whole 3 0), .iv (.ninf, .pinf), .ok⟩,
   ⟨304, .mul (whole (-1) 0, .pinf) (whole (-5) 0, .pinf), .iv (.ninf, .pinf), .ok⟩,
   ⟨306, .mul (whole (-1) 0, .pinf) (whole 1 0, .pinf), .iv (.ninf, .pinf), .ok⟩,
   ⟨308, .mul (whole (-1) 0, .pinf) (.ninf, .pinf), .iv (.ninf, .pinf), .ok⟩,
   ⟨310, .mul (.ninf, whole 3 0) (whole 0 0, whole 0 0), .iv (whole 0 0, whole 0 0), .got (.nan) (.nan)⟩,
   ⟨312, .mul (.ninf, whole 3 0) (whole 0 0, whole 0 0), .iv (whole 0 0, whole 0 0), .got (.nan) (.nan)⟩,
   ⟨314, .mul (.ninf, whole 3 0) (whole (-5) 0, whole (-1) 0), .iv (whole (-15) 0, .pinf), .ok⟩,
   ⟨316, .mul (.ninf, whole 3 0) (whole (-5) 0, whole 3 0), .iv (.ninf, .pinf), .ok⟩,
   ⟨318, .mul (.ninf, whole 3 0) (whole 1 0, whole 3 0), .iv (.ninf, whole 9 0), .ok⟩,
   ⟨320, .mul (.ninf, whole 3 0) (.ninf, whole (-1) 0), .iv (.ninf, .pinf), .ok⟩,
   ⟨322, .mul (.ninf, whole 3 0) (.ninf, whole 3 0), .iv (.ninf, .pinf), .ok⟩,
   ⟨324, .mul (.ninf, whole 3 0) (whole (-5) 0, .pinf), .iv (.ninf, .pinf), .ok⟩,
   ⟨326, .mul (.ninf, whole 3 0) (whole 1 0, .pinf), .iv (.ninf, .pinf), .ok⟩,
   ⟨328, .mul (.ninf, whole 3 0) (.ninf, .pinf), .iv (.ninf, .pinf), .ok⟩,
   ⟨330, .mul (.ninf, whole (-3) 0) (whole 0 0, whole 0 0), .iv (whole 0 0, whole 0 0), .got (.nan) (.nan)⟩,
   ⟨332, .mul (.ninf, whole (-3) 0) (whole 0 0, whole 0 0), .iv (whole 0 0, whole 0 0), .got (.nan) (.nan)⟩,
   ⟨334, .mul (.ninf, whole (-3) 0) (whole (-5) 0, whole (-1) 0), .iv (whole 3 0, .pinf), .ok⟩,
   ⟨336, .mul (.ninf, whole (-3) 0) (whole (-5) 0, whole 3 0), .iv (.ninf, .pinf), .ok⟩,
   ⟨338, .mul (.ninf, whole (-3) 0) (whole 1 0, whole 3 0), .iv (.ninf, whole (-3) 0), .ok⟩,
   ⟨340, .mul (.ninf, whole (-3) 0) (.ninf, whole (-1) 0), .iv (whole 3 0, .pinf), .ok⟩,
   ⟨342, .mul (.ninf, whole (-3) 0) (.ninf, whole 3 0), .iv (.ninf, .pinf), .ok⟩,
   ⟨344, .mul (.ninf, whole (-3) 0) (whole (-5) 0, .pinf), .iv (.ninf, .pinf), .ok⟩,
   ⟨346, .mul (.ninf, whole (-3) 0) (whole 1 0, .pinf), .iv (.ninf, whole (-3) 0), .ok⟩,
   ⟨348, .mul (.ninf, whole (-3) 0) (.ninf, .pinf), .iv (.ninf, .pinf), .ok⟩,
   ⟨350, .mul (whole 0 0, whole 0 0) (whole 0 0, whole 0 0), .iv (whole 0 0, whole 0 0), .ok⟩,
   ⟨352, .mul (whole 0 0, whole 0 0) (whole 0 0, whole 0 0), .iv (whole 0 0, whole 0 0), .ok⟩,
   ⟨354, .mul (whole 0 0, whole 0 0) (whole (-5) 0, whole (-1) 0), .iv (whole 0 0, whole 0 0), .ok⟩,
   ⟨356, .mul (whole 0 0, whole 0 0) (whole (-5) 0, whole 3 0), .iv (whole 0 0, whole 0 0), .ok⟩,
   ⟨358, .mul (whole 0 0, whole 0 0) (whole 1 0, whole 3 0), .iv (whole 0 0, whole 0 0), .ok⟩,
   ⟨360, .mul (whole 0 0, whole 0 0) (.ninf, whole (-1) 0), .iv (whole 0 0, whole 0 0), .got (.nan) (.nan)⟩,
   ⟨362, .mul (whole 0 0, whole 0 0) (.ninf, whole 3 0), .iv (whole 0 0, whole 0 0), .got (.nan) (.nan)⟩,
   ⟨364, .mul (whole 0 0, whole 0 0) (whole (-5) 0, .pinf), .iv (whole 0 0, whole 0 0), .ok⟩,
   ⟨366, .mul (whole 0 0, whole 0 0) (whole 1 0, .pinf), .iv (whole 0 0, whole 0 0), .ok⟩,
   ⟨368, .mul (whole 0 0, whole 0 0) (.ninf, .pinf), .iv (whole 0 0, whole 0 0), .got (.nan) (.nan)⟩,
   ⟨370, .mul (whole 0 0, whole 0 0) (whole 0 0, whole 0 0), .iv (whole 0 0, whole 0 0), .ok⟩,
   ⟨372, .mul (whole 0 0, whole 0 0) (whole 0 0, whole 0 0), .iv (whole 0 0, whole 0 0), .ok⟩,
   ⟨374, .mul (whole 0 0, whole 0 0) (whole (-5) 0, whole (-1) 0), .iv (whole 0 0, whole 0 0), .ok⟩,
   ⟨376, .mul (whole 0 0, whole 0 0) (whole (-5) 0, whole 3 0), .iv (whole 0 0, whole 0 0), .ok⟩,
   ⟨378, .mul (whole 0 0, whole 0 0) (whole 1 0, whole 3 0), .iv (whole 0 0, whole 0 0), .ok⟩,
   ⟨380, .mul (whole 0 0, whole 0 0) (.ninf, whole (-1) 0), .iv (whole 0 0, whole 0 0), .got (.nan) (.nan)⟩,
   ⟨382, .mul (whole 0 0, whole 0 0) (.ninf, whole 3 0), .iv (whole 0 0, whole 0 0), .got (.nan) (.nan)⟩,
   ⟨384, .mul (whole 0 0, whole 0 0) (whole (-5) 0, .pinf), .iv (whole 0 0, whole 0 0), .ok⟩,
   ⟨386, .mul (whole 0 0, whole 0 0) (whole 1 0, .pinf), .iv (whole 0 0, whole 0 0), .ok⟩,
   ⟨388, .mul (whole 0 0, whole 0 0) (.ninf, .pinf), .iv (whole 0 0, whole 0 0), .got (.nan) (.nan)⟩,
   ⟨390, .mul (whole 1 0, whole 5 0) (whole 0 0, whole 0 0), .iv (whole 0 0, whole 0 0), .ok⟩,
   ⟨392, .mul (whole 1 0, whole 5 0) (whole 0 0, whole 0 0), .iv (whole 0 0, whole 0 0), .ok⟩,
   ⟨394, .mul (whole 1 0, whole 5 0) (whole (-5) 0, whole (-1) 0), .iv (whole (-25) 0, whole (-1) 0), .ok⟩,
   ⟨396, .mul (whole 1 0, whole 5 0) (whole (-5) 0, whole 3 0), .iv (whole (-25) 0, whole 15 0), .ok⟩,
   ⟨398, .mul (whole 1 0, whole 5 0) (whole 1 0, whole 3 0), .iv (whole 1 0, whole 15 0), .ok⟩,
   ⟨400, .mul (whole 1 0, whole 5 0) (.ninf, whole (-1) 0), .iv (.ninf, whole (-1) 0), .ok⟩,
   ⟨402, .mul (whole 1 0, whole 5 0) (.ninf, whole 3 0), .iv (.ninf, whole 15 0), .ok⟩,
   ⟨404, .mul (whole 1 0, whole 5 0) (whole (-5) 0, .pinf), .iv (whole (-25) 0, .pinf), .ok⟩,
   ⟨406, .mul (whole 1 0, whole 5 0) (whole 1 0, .pinf), .iv (whole 1 0, .pinf), .ok⟩,
   ⟨408, .mul (whole 1 0, whole 5 0) (.ninf, .pinf), .iv (.ninf, .pinf), .ok⟩,
   ⟨410, .mul (whole (-1) 0, whole 5 0) (whole 0 0, whole 0 0), .iv (whole 0 0, whole 0 0), .ok⟩,
   ⟨412, .mul (whole (-1) 0, whole 5 0) (whole 0 0, whole 0 0), .iv (whole 0 0, whole 0 0), .ok⟩,
   ⟨414, .mul (whole (-1) 0, whole 5 0) (whole (-5) 0, whole (-1) 0), .iv (whole (-25) 0, whole 5 0), .ok⟩,
   ⟨417, .mul (whole (-1) 0, whole 5 0) (whole (-5) 0, whole 3 0), .iv (whole (-25) 0, whole 15 0), .ok⟩,
   ⟨419, .mul (whole (-10) 0, whole 2 0) (whole (-5) 0, whole 3 0), .iv (whole (-30) 0, whole 50 0), .ok⟩,
   ⟨421, .mul (whole (-1) 0, whole 5 0) (whole (-1) 0, whole 10 0), .iv (whole (-10) 0, whole 50 0), .ok⟩,
   ⟨423, .mul (whole (-2) 0, whole 2 0) (whole (-5) 0, whole 3 0), .iv (whole (-10) 0, whole 10 0), .ok⟩,
   ⟨426, .mul (whole (-1) 0, whole 5 0) (whole 1 0, whole 3 0), .iv (whole (-3) 0, whole 15 0), .ok⟩,
   ⟨428, .mul (whole (-1) 0, whole 5 0) (.ninf, whole (-1) 0), .iv (.ninf, .pinf), .ok⟩,
   ⟨430, .mul (whole (-1) 0, whole 5 0) (.ninf, whole 3 0), .iv (.ninf, .pinf), .ok⟩,
   ⟨432, .mul (whole (-1) 0, whole 5 0) (whole (-5) 0, .pinf), .iv (.ninf, .pinf), .ok⟩,
   ⟨434, .mul (whole (-1) 0, whole 5 0) (whole 1 0, .pinf), .iv (.ninf, .pinf), .ok⟩,
   ⟨436, .mul (whole (-1) 0, whole 5 0) (.ninf, .pinf), .iv (.ninf, .pinf), .ok⟩,
   ⟨438, .mul (whole (-10) 0, whole (-5) 0) (whole 0 0, whole 0 0), .iv (whole 0 0, whole 0 0), .ok⟩,
   ⟨440, .mul (whole (-10) 0, whole (-5) 0) (whole 0 0, whole 0 0), .iv (whole 0 0, whole 0 0), .ok⟩,
   ⟨442, .mul (whole (-10) 0, whole (-5) 0) (whole (-5) 0, whole (-1) 0), .iv (whole 5 0, whole 50 0), .ok⟩,
   ⟨444, .mul (whole (-10) 0, whole (-5) 0) (whole (-5) 0, whole 3 0), .iv (whole (-30) 0, whole 50 0), .ok⟩,
   ⟨446, .mul (whole (-10) 0, whole (-5) 0) (whole 1 0, whole 3 0), .iv (whole (-30) 0, whole (-5) 0), .ok⟩,
   ⟨448, .mul (whole (-10) 0, whole (-5) 0) (.ninf, whole (-1) 0), .iv (whole 5 0, .pinf), .ok⟩,
   ⟨450, .mul (whole (-10) 0, whole (-5) 0) (.ninf, whole 3 0), .iv (whole (-30) 0, .pinf), .ok⟩,
   ⟨452, .mul (whole (-10) 0, whole (-5) 0) (whole (-5) 0, .pinf), .iv (.ninf, whole 50 0), .ok⟩,
   ⟨454, .mul (whole (-10) 0, whole (-5) 0) (whole 1 0, .pinf), .iv (.ninf, whole (-5) 0), .ok⟩,
   ⟨456, .mul (whole (-10) 0, whole (-5) 0) (.ninf, .pinf), .iv (.ninf, .pinf), .ok⟩,
   ⟨458, .mul (bin 3602879701896397 55, bin 562949953421311 48) (bin (-562949953421311) 48, .pinf), .iv (bin (-9007199254740961) 51, .pinf), .ok⟩,
   ⟨460, .mul (bin (-3602879701896397) 55, bin 562949953421311 48) (bin (-562949953421311) 48, bin (-3602879701896397) 55), .iv (bin (-9007199254740961) 51, bin 3602879701896391 54), .ok⟩,
   ⟨462, .mul (bin (-3602879701896397) 55, bin 3602879701896397 55) (bin (-562949953421311) 48, bin 3602879701896397 55), .iv (bin (-3602879701896391) 54, bin 3602879701896391 54), .ok⟩,
   ⟨464, .mul (bin (-562949953421311) 48, bin (-3602879701896397) 55) (bin 3602879701896397 55, bin 562949953421311 48), .iv (bin (-9007199254740961) 51, bin (-5764607523034235) 59), .ok⟩]

theorem elem_mul_agree : ∀ r ∈ elem_mul, r.agrees libm = true := by decide +kernel

/-- libieeep1788_elem.py, `TestCase_minimal_neg_test`. -/
def elem_neg : List Run :=
  [⟨58, .neg (whole 1 0, whole 2 0), .iv (whole (-2) 0, whole (-1) 0), .ok⟩,
   ⟨60, .neg (.nan, .nan), .iv (.nan, .nan), .got (.nan) (.nan)⟩,
   ⟨62, .neg (.ninf, .pinf), .iv (.ninf, .pinf), .ok⟩,
   ⟨64, .neg (whole 1 0, .pinf), .iv (.ninf, whole (-1) 0), .ok⟩,
   ⟨66, .neg (.ninf, whole 1 0), .iv (whole (-1) 0, .pinf), .ok⟩,
   ⟨68, .neg (whole 0 0, whole 2 0), .iv (whole (-2) 0, whole 0 0), .ok⟩,
   ⟨70, .neg (whole 0 0, whole 2 0), .iv (whole (-2) 0, whole 0 0), .ok⟩,
   ⟨72, .neg (whole (-2) 0, whole 0 0), .iv (whole 0 0, whole 2 0), .ok⟩,
   ⟨74, .neg (whole (-2) 0, whole 0 0), .iv (whole 0 0, whole 2 0), .ok⟩,
   ⟨76, .neg (whole 0 0, whole 0 0), .iv (whole 0 0, whole 0 0), .ok⟩,
   ⟨78, .neg (whole 0 0, whole 0 0), .iv (whole 0 0, whole 0 0), .ok⟩]

theorem elem_neg_agree : ∀ r ∈ elem_neg, r.agrees libm = true := by decide +kernel

/-- libieeep1788_elem.py, `TestCase_minimal_sin_test`. -/
def elem_sin : List Run :=
  [⟨1396, .sin (.nan, .nan), .iv (.nan, .nan), .got (.nan) (.nan)⟩,
   ⟨1398, .sin (whole 0 0, .pinf), .iv (whole (-1) 0, whole 1 0), .raised .valueError⟩,
   ⟨1400, .sin (whole 0 0, .pinf), .iv (whole (-1) 0, whole 1 0), .raised .valueError⟩,
   ⟨1402, .sin (.ninf, whole 0 0), .iv (whole (-1) 0, whole 1 0), .raised .valueError⟩,
   ⟨1404, .sin (.ninf, whole 0 0), .iv (whole (-1) 0, whole 1 0), .raised .valueError⟩,
   ⟨1406, .sin (.ninf, .pinf), .iv (whole (-1) 0, whole 1 0), .raised .valueError⟩,
   ⟨1408, .sin (whole 0 0, whole 0 0), .iv (whole 0 0, whole 0 0), .got (dec (-494066) 329) (dec 494066 329)⟩,
   ⟨1410, .sin (whole 0 0, whole 0 0), .iv (whole 0 0, whole 0 0), .got (dec (-494066) 329) (dec 494066 329)⟩,
   ⟨1412, .sin (bin 884279719003555 49, bin 884279719003555 49), .iv (bin 9007199254740991 53, whole 1 0), .ok⟩,
   ⟨1414, .sin (bin 7074237752028441 52, bin 7074237752028441 52), .iv (bin 9007199254740991 53, whole 1 0), .got (whole 1 0) (whole 1 0)⟩,
   ⟨1416, .sin (bin 884279719003555 49, bin 7074237752028441 52), .iv (bin 9007199254740991 53, whole 1 0), .ok⟩,
   ⟨1418, .sin (whole 0 0, bin 884279719003555 49), .iv (whole 0 0, whole 1 0), .got (dec (-494066) 329) (whole 1 0)⟩,
   ⟨1420, .sin (whole 0 0, bin 884279719003555 49), .iv (whole 0 0, whole 1 0), .got (dec (-494066) 329) (whole 1 0)⟩,
   ⟨1422, .sin (whole 0 0, bin 7074237752028441 52), .iv (whole 0 0, whole 1 0), .got (dec (-494066) 329) (whole 1 0)⟩,
   ⟨1424, .sin (whole 0 0, bin 7074237752028441 52), .iv (whole 0 0, whole 1 0), .got (dec (-494066) 329) (whole 1 0)⟩,
   ⟨1426, .sin (bin 884279719003555 48, bin 884279719003555 48), .iv (bin 2483878800010755 104, bin 4967757600021511 105), .got (dec 122465 21) (dec 122465 21)⟩,
   ⟨1428, .sin (bin 7074237752028441 51, bin 7074237752028441 51), .iv (bin (-6523320454730237) 104, bin (-1630830113682559) 102), .got (dec (-321625) 21) (dec (-321625) 21)⟩,
   ⟨1430, .sin (bin 884279719003555 48, bin 7074237752028441 51), .iv (bin (-6523320454730237) 104, bin 4967757600021511 105), .got (dec (-321625) 21) (dec 122465 21)⟩,
   ⟨1432, .sin (whole 0 0, bin 884279719003555 48), .iv (whole 0 0, whole 1 0), .got (dec (-494066) 329) (whole 1 0)⟩,
   ⟨1434, .sin (whole 0 0, bin 884279719003555 48), .iv (whole 0 0, whole 1 0), .got (dec (-494066) 329) (whole 1 0)⟩,
   ⟨1436, .sin (whole 0 0, bin 7074237752028441 51), .iv (bin (-6523320454730237) 104, whole 1 0), .got (dec (-321625) 21) (whole 1 0)⟩,
   ⟨1438, .sin (whole 0 0, bin 7074237752028441 51), .iv (bin (-6523320454730237) 104, whole 1 0), .got (dec (-321625) 21) (whole 1 0)⟩,
   ⟨1440, .sin (bin 884279719003555 49, bin 884279719003555 48), .iv (bin 2483878800010755 104, whole 1 0), .ok⟩,
   ⟨1442, .sin (bin 884279719003555 49, bin 7074237752028441 51), .iv (bin (-6523320454730237) 104, whole 1 0), .got (dec (-321625) 21) (whole 1 0)⟩,
   ⟨1444, .sin (bin 7074237752028441 52, bin 884279719003555 48), .iv (bin 2483878800010755 104, whole 1 0), .got (dec 122465 21) (whole 1 0)⟩,
   ⟨1446, .sin (bin 7074237752028441 52, bin 7074237752028441 51), .iv (bin (-6523320454730237) 104, whole 1 0), .got (dec (-321625) 21) (whole 1 0)⟩,
   ⟨1448, .sin (bin (-884279719003555) 49, bin (-884279719003555) 49), .iv (whole (-1) 0, bin (-9007199254740991) 53), .ok⟩,
   ⟨1450, .sin (bin (-7074237752028441) 52, bin (-7074237752028441) 52), .iv (whole (-1) 0, bin (-9007199254740991) 53), .got (whole (-1) 0) (whole (-1) 0)⟩,
   ⟨1452, .sin (bin (-7074237752028441) 52, bin (-884279719003555) 49), .iv (whole (-1) 0, bin (-9007199254740991) 53), .ok⟩,
   ⟨1454, .sin (bin (-884279719003555) 49, whole 0 0), .iv (whole (-1) 0, whole 0 0), .got (whole (-1) 0) (dec 494066 329)⟩,
   ⟨1456, .sin (bin (-884279719003555) 49, whole 0 0), .iv (whole (-1) 0, whole 0 0), .got (whole (-1) 0) (dec 494066 329)⟩,
   ⟨1458, .sin (bin (-7074237752028441) 52, whole 0 0), .iv (whole (-1) 0, whole 0 0), .got (whole (-1) 0) (dec 494066 329)⟩,
   ⟨1460, .sin (bin (-7074237752028441) 52, whole 0 0), .iv (whole (-1) 0, whole 0 0), .got (whole (-1) 0) (dec 494066 329)⟩,
   ⟨1462, .sin (bin (-884279719003555) 48, bin (-884279719003555) 48), .iv (bin (-4967757600021511) 105, bin (-2483878800010755) 104), .got (dec (-122465) 21) (dec (-122465) 21)⟩,
   ⟨1464, .sin (bin (-7074237752028441) 51, bin (-7074237752028441) 51), .iv (bin 1630830113682559 102, bin 6523320454730237 104), .got (dec 321625 21) (dec 321625 21)⟩,
   ⟨1466, .sin (bin (-7074237752028441) 51, bin (-884279719003555) 48), .iv (bin (-4967757600021511) 105, bin 6523320454730237 104), .got (dec (-122465) 21) (dec 321625 21)⟩,
   ⟨1468, .sin (bin (-884279719003555) 48, whole 0 0), .iv (whole (-1) 0, whole 0 0), .got (whole (-1) 0) (dec 494066 329)⟩,
   ⟨1470, .sin (bin (-884279719003555) 48, whole 0 0), .iv (whole (-1) 0, whole 0 0), .got (whole (-1) 0) (dec 494066 329)⟩,
   ⟨1472, .sin (bin (-7074237752028441) 51, whole 0 0), .iv (whole (-1) 0, bin 6523320454730237 104), .got (whole (-1) 0) (dec 321625 21)⟩,
   ⟨1474, .sin (bin (-7074237752028441) 51, whole 0 0), .iv (whole (-1) 0, bin 6523320454730237 104), .got (whole (-1) 0) (dec 321625 21)⟩,
   ⟨1476, .sin (bin (-884279719003555) 48, bin (-884279719003555) 49), .iv (whole (-1) 0, bin (-2483878800010755) 104), .ok⟩,
   ⟨1478, .sin (bin (-7074237752028441) 51, bin (-884279719003555) 49), .iv (whole (-1) 0, bin 6523320454730237 104), .got (whole (-1) 0) (dec 321625 21)⟩,
   ⟨1480, .sin (bin (-884279719003555) 48, bin (-7074237752028441) 52), .iv (whole (-1) 0, bin (-2483878800010755) 104), .got (whole (-1) 0) (dec (-122465) 21)⟩,
   ⟨1482, .sin (bin (-7074237752028441) 51, bin (-7074237752028441) 52), .iv (whole (-1) 0, bin 6523320454730237 104), .got (whole (-1) 0) (dec 321625 21)⟩,
   ⟨1484, .sin (bin (-884279719003555) 49, bin 884279719003555 49), .iv (whole (-1) 0, whole 1 0), .ok⟩,
   ⟨1486, .sin (bin (-884279719003555) 49, bin 7074237752028441 52), .iv (whole (-1) 0, whole 1 0), .ok⟩,
   ⟨1488, .sin (bin (-7074237752028441) 52, bin 884279719003555 49), .iv (whole (-1) 0, whole 1 0), .ok⟩,
   ⟨1490, .sin (bin (-7074237752028441) 52, bin 7074237752028441 52), .iv (whole (-1) 0, whole 1 0), .ok⟩,
   ⟨1492, .sin (bin (-3152519739159347) 52, bin 3602879701896397 55), .iv (bin (-5802597072378297) 53, bin 7193755808156461 56), .ok⟩,
   ⟨1494, .sin (whole 1 0, whole 2 0), .iv (bin 3789648413623927 52, whole 1 0), .got (dec 841471 6) (whole 1 0)⟩,
   ⟨1496, .sin (bin (-3602879701896397) 50, bin (-6530219459687219) 51), .iv (bin (-8619865519173859) 55, bin 8412600658832691 57), .got (dec (-239249) 6) (dec 583741 7)⟩,
   ⟨1498, .sin (whole 2 0, whole 3 0), .iv (bin 5084384125703515 55, bin 4095111552621091 52), .got (dec 14112 5) (dec 909297 6)⟩]

theorem elem_sin_agree : ∀ r ∈ elem_sin, r.agrees libm = true := by decide +kernel

/-- libieeep1788_elem.py, `TestCase_minimal_sqrt_test`. -/
def elem_sqrt : List Run :=
  [⟨1186, .sqrt (.nan, .nan), .iv (.nan, .nan), .got (.nan) (.nan)⟩,
   ⟨1188, .sqrt (.ninf, .pinf), .iv (whole 0 0, .pinf), .got (dec (-494066) 329) (whole 11031285289538837559043422857199097325775143968331419360881725915595109056700851722499691706443839096611462668458652408355421044508468016155485051655190553135601106453006061487893962880235676493612118065357208251953125 303)⟩,
   ⟨1190, .sqrt (.ninf, bin (-1) 1074), .iv (.nan, .nan), .got (.nan) (.nan)⟩,
   ⟨1192, .sqrt (whole (-1) 0, whole 1 0), .iv (whole 0 0, whole 1 0), .got (dec (-494066) 329) (whole 1 0)⟩,
   ⟨1194, .sqrt (whole 0 0, whole 1 0), .iv (whole 0 0, whole 1 0), .got (dec (-494066) 329) (whole 1 0)⟩,
   ⟨1196, .sqrt (whole 0 0, whole 1 0), .iv (whole 0 0, whole 1 0), .got (dec (-494066) 329) (whole 1 0)⟩,
   ⟨1198, .sqrt (whole (-5) 0, whole 25 0), .iv (whole 0 0, whole 5 0), .got (dec (-494066) 329) (whole 5 0)⟩,
   ⟨1200, .sqrt (whole 0 0, whole 25 0), .iv (whole 0 0, whole 5 0), .got (dec (-494066) 329) (whole 5 0)⟩,
   ⟨1202, .sqrt (whole 0 0, whole 25 0), .iv (whole 0 0, whole 5 0), .got (dec (-494066) 329) (whole 5 0)⟩,
   ⟨1204, .sqrt (whole (-5) 0, .pinf), .iv (whole 0 0, .pinf), .got (dec (-494066) 329) (whole 11031285289538837559043422857199097325775143968331419360881725915595109056700851722499691706443839096611462668458652408355421044508468016155485051655190553135601106453006061487893962880235676493612118065357208251953125 303)⟩,
   ⟨1206, .sqrt (bin 3602879701896397 55, bin 3602879701896397 55), .iv (bin 5696652996790543 54, bin 356040812299409 50), .got (dec 316228 6) (dec 316228 6)⟩,
   ⟨1208, .sqrt (bin (-562949953421311) 48, bin 3602879701896397 55), .iv (whole 0 0, bin 356040812299409 50), .got (dec (-494066) 329) (dec 316228 6)⟩,
   ⟨1210, .sqrt (bin 3602879701896397 55, bin 562949953421311 48), .iv (bin 5696652996790543 54, bin 6369051672525767 52), .got (dec 316228 6) (dec 141421 5)⟩,
   ⟨1212, .sqrt (whole 1 0, whole 4 0), .iv (whole 1 0, whole 2 0), .got (whole 1 0) (whole 2 0)⟩]

theorem elem_sqrt_agree : ∀ r ∈ elem_sqrt, r.agrees libm = true := by decide +kernel

/-- libieeep1788_elem.py, `TestCase_minimal_sub_test`. -/
def elem_sub : List Run :=
  [⟨161, .sub (.nan, .nan) (.nan, .nan), .iv (.nan, .nan), .got (.nan) (.nan)⟩,
   ⟨163, .sub (whole (-1) 0, whole 1 0) (.nan, .nan), .iv (.nan, .nan), .got (.nan) (.nan)⟩,
   ⟨165, .sub (.nan, .nan) (whole (-1) 0, whole 1 0), .iv (.nan, .nan), .got (.nan) (.nan)⟩,
   ⟨167, .sub (.nan, .nan) (.ninf, .pinf), .iv (.nan, .nan), .got (.nan) (.nan)⟩,
   ⟨169, .sub (.ninf, .pinf) (.nan, .nan), .iv (.nan, .nan), .got (.nan) (.nan)⟩,
   ⟨171, .sub (.ninf, .pinf) (.ninf, whole 1 0), .iv (.ninf, .pinf), .ok⟩,
   ⟨173, .sub (.ninf, .pinf) (whole (-1) 0, whole 1 0), .iv (.ninf, .pinf), .ok⟩,
   ⟨175, .sub (.ninf, .pinf) (whole (-1) 0, .pinf), .iv (.ninf, .pinf), .ok⟩,
   ⟨177, .sub (.ninf, .pinf) (.ninf, .pinf), .iv (.ninf, .pinf), .ok⟩,
   ⟨179, .sub (.ninf, whole 1 0) (.ninf, .pinf), .iv (.ninf, .pinf), .ok⟩,
   ⟨181, .sub (whole (-1) 0, whole 1 0) (.ninf, .pinf), .iv (.ninf, .pinf), .ok⟩,
   ⟨183, .sub (whole (-1) 0, .pinf) (.ninf, .pinf), .iv (.ninf, .pinf), .ok⟩,
   ⟨185, .sub (.ninf, whole 2 0) (.ninf, whole 4 0), .iv (.ninf, .pinf), .ok⟩,
   ⟨187, .sub (.ninf, whole 2 0) (whole 3 0, whole 4 0), .iv (.ninf, whole (-1) 0), .ok⟩,
   ⟨189, .sub (.ninf, whole 2 0) (whole 3 0, .pinf), .iv (.ninf, whole (-1) 0), .ok⟩,
   ⟨191, .sub (whole 1 0, whole 2 0) (.ninf, whole 4 0), .iv (whole (-3) 0, .pinf), .ok⟩,
   ⟨193, .sub (whole 1 0, whole 2 0) (whole 3 0, whole 4 0), .iv (whole (-3) 0, whole (-1) 0), .ok⟩,
   ⟨195, .sub (whole 1 0, whole 2 0) (whole 3 0, .pinf), .iv (.ninf, whole (-1) 0), .ok⟩,
   ⟨197, .sub (whole 1 0, .pinf) (.ninf, whole 4 0), .iv (whole (-3) 0, .pinf), .ok⟩,
   ⟨199, .sub (whole 1 0, .pinf) (whole 3 0, whole 4 0), .iv (whole (-3) 0, .pinf), .ok⟩,
   ⟨201, .sub (whole 1 0, .pinf) (whole 3 0, .pinf), .iv (.ninf, .pinf), .ok⟩,
   ⟨203, .sub (whole 1 0, whole 9007199254740991 971) (whole (-3) 0, whole 4 0), .iv (whole (-3) 0, .pinf), .ok⟩,
   ⟨205, .sub (whole (-9007199254740991) 971, whole 2 0) (whole 3 0, whole 4 0), .iv (.ninf, whole (-1) 0), .ok⟩,
   ⟨207, .sub (whole (-9007199254740991) 971, whole 2 0) (whole (-9007199254740991) 971, whole 4 0), .iv (.ninf, .pinf), .ok⟩,
   ⟨209, .sub (whole 1 0, whole 9007199254740991 971) (whole 0 0, whole 0 0), .iv (whole 1 0, whole 9007199254740991 971), .ok⟩,
   ⟨211, .sub (whole 1 0, whole 9007199254740991 971) (whole 0 0, whole 0 0), .iv (whole 1 0, whole 9007199254740991 971), .ok⟩,
   ⟨213, .sub (whole 0 0, whole 0 0) (whole (-3) 0, whole 4 0), .iv (whole (-4) 0, whole 3 0), .ok⟩,
   ⟨215, .sub (whole 0 0, whole 0 0) (whole (-3) 0, whole 9007199254740991 971), .iv (whole (-9007199254740991) 971, whole 3 0), .ok⟩,
   ⟨217, .sub (bin 562949953421311 48, bin 562949953421311 48) (bin 3602879701896397 55, bin 3602879701896397 55), .iv (bin 4278419646001963 51, bin 8556839292003927 52), .ok⟩,
   ⟨219, .sub (bin 562949953421311 48, bin 562949953421311 48) (bin (-3602879701896397) 55, bin (-3602879701896397) 55), .iv (bin 1182194902184753 49, bin 4728779608739013 51), .ok⟩,
   ⟨221, .sub (bin (-562949953421311) 48, bin 562949953421311 48) (bin 3602879701896397 55, bin 3602879701896397 55), .iv (bin (-4728779608739013) 51, bin 8556839292003927 52), .ok⟩]

theorem elem_sub_agree : ∀ r ∈ elem_sub, r.agrees libm = true := by decide +kernel

/-- libieeep1788_num.py, `TestCase_minimal_inf_test`. -/
def num_inf : List Run :=
  [⟨48, .endA (.nan, .nan), .num (.pinf), .gotNum (.nan)⟩,
   ⟨66, .endA (whole 0 0, .pinf), .num (whole 0 0), .ok⟩,
   ⟨68, .endA (whole 0 0, whole 0 0), .num (whole 0 0), .ok⟩,
   ⟨70, .endA (whole 0 0, whole 0 0), .num (whole 0 0), .ok⟩,
   ⟨72, .endA (whole 0 0, whole 0 0), .num (whole 0 0), .ok⟩,
   ⟨74, .endA (whole 0 0, whole 0 0), .num (whole 0 0), .ok⟩,
   ⟨50, .endA (.ninf, .pinf), .num (.ninf), .ok⟩,
   ⟨52, .endA (whole 1 0, whole 2 0), .num (whole 1 0), .ok⟩,
   ⟨54, .endA (whole (-3) 0, whole (-2) 0), .num (whole (-3) 0), .ok⟩,
   ⟨56, .endA (.ninf, whole 2 0), .num (.ninf), .ok⟩,
   ⟨58, .endA (.ninf, whole 0 0), .num (.ninf), .ok⟩,
   ⟨60, .endA (.ninf, whole 0 0), .num (.ninf), .ok⟩,
   ⟨62, .endA (whole (-2) 0, .pinf), .num (whole (-2) 0), .ok⟩,
   ⟨64, .endA (whole 0 0, .pinf), .num (whole 0 0), .ok⟩]

theorem num_inf_agree : ∀ r ∈ num_inf, r.agrees libm = true := by decide +kernel

/-- libieeep1788_num.py, `TestCase_minimal_mag_test`. -/
def num_mag : List Run :=
  [⟨222, .mag (whole 1 0, whole 2 0), .num (whole 2 0), .ok⟩,
   ⟨224, .mag (whole (-4) 0, whole 2 0), .num (whole 4 0), .ok⟩,
   ⟨226, .mag (.ninf, whole 2 0), .num (.pinf), .ok⟩,
   ⟨228, .mag (whole 1 0, .pinf), .num (.pinf), .ok⟩,
   ⟨230, .mag (.ninf, .pinf), .num (.pinf), .ok⟩,
   ⟨232, .mag (.nan, .nan), .num (.nan), .gotNum (.nan)⟩,
   ⟨234, .mag (whole 0 0, whole 0 0), .num (whole 0 0), .ok⟩,
   ⟨236, .mag (whole 0 0, whole 0 0), .num (whole 0 0), .ok⟩]

theorem num_mag_agree : ∀ r ∈ num_mag, r.agrees libm = true := by decide +kernel

/-- libieeep1788_num.py, `TestCase_minimal_mid_test`. -/
def num_mid : List Run :=
  [⟨124, .mid (.nan, .nan), .num (.nan), .gotNum (.nan)⟩,
   ⟨126, .mid (.ninf, .pinf), .num (whole 0 0), .gotNum (.nan)⟩,
   ⟨128, .mid (whole (-9007199254740991) 971, whole 9007199254740991 971), .num (whole 0 0), .ok⟩,
   ⟨130, .mid (whole 0 0, whole 2 0), .num (whole 1 0), .ok⟩,
   ⟨132, .mid (whole 2 0, whole 2 0), .num (whole 2 0), .ok⟩,
   ⟨134, .mid (whole (-2) 0, whole 2 0), .num (whole 0 0), .ok⟩,
   ⟨136, .mid (whole 0 0, .pinf), .num (whole 9007199254740991 971), .gotNum (.pinf)⟩,
   ⟨138, .mid (.ninf, bin 5404319552844595 52), .num (whole (-9007199254740991) 971), .gotNum (.ninf)⟩,
   ⟨140, .mid (bin (-1) 1073, bin 1 1074), .num (whole 0 0), .ok⟩,
   ⟨142, .mid (bin (-1) 1074, bin 1 1073), .num (whole 0 0), .ok⟩,
   ⟨144, .mid (whole 9007199254740991 970, whole 9007199254740991 971), .num (whole 6755399441055743 971), .gotNum (.pinf)⟩,
   ⟨146, .mid (bin 1 1074, bin 3 1074), .num (bin 1 1073), .ok⟩]

theorem num_mid_agree : ∀ r ∈ num_mid, r.agrees libm = true := by decide +kernel

/-- libieeep1788_num.py, `TestCase_minimal_mig_test`. -/
def num_mig : List Run :=
  [⟨248, .mig (whole 1 0, whole 2 0), .num (whole 1 0), .ok⟩,
   ⟨250, .mig (whole (-4) 0, whole 2 0), .num (whole 0 0), .ok⟩,
   ⟨252, .mig (whole (-4) 0, whole (-2) 0), .num (whole 2 0), .ok⟩,
   ⟨254, .mig (.ninf, whole 2 0), .num (whole 0 0), .ok⟩,
   ⟨256, .mig (.ninf, whole (-2) 0), .num (whole 2 0), .ok⟩,
   ⟨258, .mig (whole (-1) 0, .pinf), .num (whole 0 0), .ok⟩,
   ⟨260, .mig (whole 1 0, .pinf), .num (whole 1 0), .ok⟩,
   ⟨262, .mig (.ninf, .pinf), .num (whole 0 0), .ok⟩,
   ⟨264, .mig (.nan, .nan), .num (.nan), .gotNum (.nan)⟩,
   ⟨266, .mig (whole 0 0, whole 0 0), .num (whole 0 0), .ok⟩,
   ⟨268, .mig (whole 0 0, whole 0 0), .num (whole 0 0), .ok⟩]

theorem num_mig_agree : ∀ r ∈ num_mig, r.agrees libm = true := by decide +kernel

/-- libieeep1788_num.py, `TestCase_minimal_rad_test`. -/
def num_rad : List Run :=
  [⟨158, .rad (whole 0 0, whole 2 0), .num (whole 1 0), .ok⟩,
   ⟨160, .rad (whole 2 0, whole 2 0), .num (whole 0 0), .ok⟩,
   ⟨162, .rad (.nan, .nan), .num (.nan), .gotNum (.nan)⟩,
   ⟨164, .rad (.ninf, .pinf), .num (.pinf), .ok⟩,
   ⟨166, .rad (whole 0 0, .pinf), .num (.pinf), .ok⟩,
   ⟨168, .rad (.ninf, bin 5404319552844595 52), .num (.pinf), .ok⟩,
   ⟨170, .rad (bin (-1) 1073, bin 1 1074), .num (bin 1 1073), .ok⟩,
   ⟨172, .rad (bin 1 1074, bin 1 1073), .num (bin 1 1074), .gotNum (whole 0 0)⟩,
   ⟨174, .rad (whole 1 0, bin 4503599627370499 52), .num (bin 1 51), .gotNum (bin 3 53)⟩]

theorem num_rad_agree : ∀ r ∈ num_rad, r.agrees libm = true := by decide +kernel

/-- libieeep1788_num.py, `TestCase_minimal_sup_test`. -/
def num_sup : List Run :=
  [⟨86, .endB (.nan, .nan), .num (.ninf), .gotNum (.nan)⟩,
   ⟨88, .endB (.ninf, .pinf), .num (.pinf), .ok⟩,
   ⟨90, .endB (whole 1 0, whole 2 0), .num (whole 2 0), .ok⟩,
   ⟨92, .endB (whole (-3) 0, whole (-2) 0), .num (whole (-2) 0), .ok⟩,
   ⟨94, .endB (.ninf, whole 2 0), .num (whole 2 0), .ok⟩,
   ⟨96, .endB (.ninf, whole 0 0), .num (whole 0 0), .ok⟩,
   ⟨98, .endB (.ninf, whole 0 0), .num (whole 0 0), .ok⟩,
   ⟨100, .endB (whole (-2) 0, .pinf), .num (.pinf), .ok⟩,
   ⟨102, .endB (whole 0 0, .pinf), .num (.pinf), .ok⟩,
   ⟨104, .endB (whole 0 0, .pinf), .num (.pinf), .ok⟩,
   ⟨106, .endB (whole 0 0, whole 0 0), .num (whole 0 0), .ok⟩,
   ⟨108, .endB (whole 0 0, whole 0 0), .num (whole 0 0), .ok⟩,
   ⟨110, .endB (whole 0 0, whole 0 0), .num (whole 0 0), .ok⟩,
   ⟨112, .endB (whole 0 0, whole 0 0), .num (whole 0 0), .ok⟩]

theorem num_sup_agree : ∀ r ∈ num_sup, r.agrees libm = true := by decide +kernel

/-- libieeep1788_num.py, `TestCase_minimal_wid_test`. -/
def num_wid : List Run :=
  [⟨196, .wid (whole 2 0, whole 2 0), .num (whole 0 0), .ok⟩,
   ⟨198, .wid (whole 1 0, whole 2 0), .num (whole 1 0), .ok⟩,
   ⟨200, .wid (whole 1 0, .pinf), .num (.pinf), .ok⟩,
   ⟨202, .wid (.ninf, whole 2 0), .num (.pinf), .ok⟩,
   ⟨204, .wid (.ninf, .pinf), .num (.pinf), .ok⟩,
   ⟨206, .wid (.nan, .nan), .num (.nan), .gotNum (.nan)⟩,
   ⟨208, .wid (whole 1 0, bin 4503599627370497 52), .num (bin 1 52), .ok⟩,
   ⟨210, .wid (bin 1 1022, bin 4503599627370497 1074), .num (bin 1 1074), .ok⟩]

theorem num_wid_agree : ∀ r ∈ num_wid, r.agrees libm = true := by decide +kernel

/-- mpfi.py, `TestCase_mpfi_add`. -/
def mpfi_add : List Run :=
  [⟨69, .add (.ninf, whole (-7) 0) (whole (-1) 0, whole 8 0), .iv (.ninf, whole 1 0), .ok⟩,
   ⟨71, .add (.ninf, whole 0 0) (whole 8 0, .pinf), .iv (.ninf, .pinf), .ok⟩,
   ⟨73, .add (.ninf, whole 8 0) (whole 0 0, whole 8 0), .iv (.ninf, whole 16 0), .ok⟩,
   ⟨75, .add (.ninf, .pinf) (whole 0 0, whole 8 0), .iv (.ninf, .pinf), .ok⟩,
   ⟨77, .add (whole 0 0, whole 0 0) (.ninf, whole (-7) 0), .iv (.ninf, whole (-7) 0), .ok⟩,
   ⟨79, .add (whole 0 0, whole 8 0) (whole (-7) 0, whole 0 0), .iv (whole (-7) 0, whole 8 0), .ok⟩,
   ⟨81, .add (whole 0 0, whole 0 0) (whole 0 0, whole 8 0), .iv (whole 0 0, whole 8 0), .ok⟩,
   ⟨83, .add (whole 0 0, .pinf) (whole 0 0, whole 8 0), .iv (whole 0 0, .pinf), .ok⟩,
   ⟨85, .add (whole 0 0, whole 0 0) (whole 8 0, .pinf), .iv (whole 8 0, .pinf), .ok⟩,
   ⟨87, .add (whole 0 0, whole 0 0) (.ninf, .pinf), .iv (.ninf, .pinf), .ok⟩,
   ⟨89, .add (whole 0 0, whole 8 0) (whole 0 0, whole 8 0), .iv (whole 0 0, whole 16 0), .ok⟩,
   ⟨91, .add (whole 0 0, whole 0 0) (whole 0 0, whole 0 0), .iv (whole 0 0, whole 0 0), .ok⟩,
   ⟨93, .add (whole 0 0, .pinf) (whole (-7) 0, whole 8 0), .iv (whole (-7) 0, .pinf), .ok⟩,
   ⟨96, .add (bin (-3) 3, bin (-65927) 256) (bin (-1) 3, bin 1 240), .iv (bin (-1) 1, bin (-391) 256), .ok⟩,
   ⟨98, .add (bin (-1) 300, whole 596523 29) (bin (-1) 41, whole 126462925 0), .iv (bin (-4503599627370497) 93, whole 320255973501901 0), .ok⟩,
   ⟨100, .add (whole (-4) 0, whole 7 0) (bin (-320255973501901) 17, whole 5043654821435445 946), .iv (bin (-320255974026189) 17, whole 2521827410717723 947), .ok⟩,
   ⟨102, .add (whole 72058693566333184 0, whole 1 60) (whole 281479271743489 0, whole 5043654821435445 946), .iv (whole 72340172838076672 0, whole 2521827410717723 947), .ok⟩,
   ⟨105, .add (whole 4 0, whole 8 0) (whole (-4) 0, whole (-2) 0), .iv (whole 0 0, whole 6 0), .ok⟩,
   ⟨107, .add (whole 4 0, whole 8 0) (whole (-9) 0, whole (-8) 0), .iv (whole (-5) 0, whole 0 0), .ok⟩]

theorem mpfi_add_agree : ∀ r ∈ mpfi_add, r.agrees libm = true := by decide +kernel

/-- mpfi.py, `TestCase_mpfi_add_d`. -/
def mpfi_add_d : List Run :=
  [⟨114, .add (.ninf, whole (-7) 0) (bin (-6490371073168535) 107, bin (-6490371073168535) 107), .iv (.ninf, whole (-7) 0), .ok⟩,
   ⟨116, .add (.ninf, whole (-7) 0) (whole 0 0, whole 0 0), .iv (.ninf, whole (-7) 0), .ok⟩,
   ⟨118, .add (.ninf, whole (-7) 0) (bin 6490371073168535 107, bin 6490371073168535 107), .iv (.ninf, bin (-7881299347898367) 50), .ok⟩,
   ⟨120, .add (.ninf, whole 0 0) (bin (-6490371073168535) 106, bin (-6490371073168535) 106), .iv (.ninf, bin (-6490371073168535) 106), .ok⟩,
   ⟨122, .add (.ninf, whole 0 0) (whole 0 0, whole 0 0), .iv (.ninf, whole 0 0), .ok⟩,
   ⟨124, .add (.ninf, whole 0 0) (bin 6490371073168535 106, bin 6490371073168535 106), .iv (.ninf, bin 6490371073168535 106), .ok⟩,
   ⟨126, .add (.ninf, whole 8 0) (whole (-762939453125) 21, whole (-762939453125) 21), .iv (.ninf, whole (-1599999999999999744) 0), .ok⟩,
   ⟨128, .add (.ninf, whole 8 0) (whole 0 0, whole 0 0), .iv (.ninf, whole 8 0), .ok⟩,
   ⟨130, .add (.ninf, whole 8 0) (whole 762939453125 21, whole 762939453125 21), .iv (.ninf, whole 1600000000000000256 0), .ok⟩,
   ⟨132, .add (.ninf, .pinf) (bin (-6490371073168535) 105, bin (-6490371073168535) 105), .iv (.ninf, .pinf), .ok⟩,
   ⟨134, .add (.ninf, .pinf) (whole 0 0, whole 0 0), .iv (.ninf, .pinf), .ok⟩,
   ⟨136, .add (.ninf, .pinf) (bin 6490371073168535 105, bin 6490371073168535 105), .iv (.ninf, .pinf), .ok⟩,
   ⟨138, .add (whole 0 0, whole 0 0) (bin (-6490371073168535) 109, bin (-6490371073168535) 109), .iv (bin (-6490371073168535) 109, bin (-6490371073168535) 109), .ok⟩,
   ⟨140, .add (whole 0 0, whole 0 0) (whole 0 0, whole 0 0), .iv (whole 0 0, whole 0 0), .ok⟩,
   ⟨142, .add (whole 0 0, whole 0 0) (bin 6490371073168535 109, bin 6490371073168535 109), .iv (bin 6490371073168535 109, bin 6490371073168535 109), .ok⟩,
   ⟨144, .add (whole 0 0, whole 8 0) (bin (-4867778304876401) 107, bin (-4867778304876401) 107), .iv (bin (-4867778304876401) 107, whole 8 0), .ok⟩,
   ⟨146, .add (whole 0 0, whole 8 0) (whole 0 0, whole 0 0), .iv (whole 0 0, whole 8 0), .ok⟩,
   ⟨148, .add (whole 0 0, whole 8 0) (bin 304236144054775 103, bin 304236144054775 103), .iv (bin 304236144054775 103, bin 4503599627370497 49), .ok⟩,
   ⟨150, .add (whole 0 0, .pinf) (bin (-1419768672255617) 104, bin (-1419768672255617) 104), .iv (bin (-1419768672255617) 104, .pinf), .ok⟩,
   ⟨152, .add (whole 0 0, .pinf) (whole 0 0, whole 0 0), .iv (whole 0 0, .pinf), .ok⟩,
   ⟨154, .add (whole 0 0, .pinf) (bin 5679074689022467 106, bin 5679074689022467 106), .iv (bin 5679074689022467 106, .pinf), .ok⟩,
   ⟨157, .add (whole (-32) 0, whole (-17) 0) (bin (-4421398595017775) 47, bin (-4421398595017775) 47), .iv (bin (-8924998222388271) 47, bin (-6813935897058351) 47), .ok⟩,
   ⟨159, .add (bin (-4421398595017775) 47, whole (-17) 0) (bin 4421398595017775 47, bin 4421398595017775 47), .iv (whole 0 0, bin 2028861292977199 47), .ok⟩,
   ⟨161, .add (whole (-32) 0, bin (-4421398595017775) 48) (bin 4421398595017775 48, bin 4421398595017775 48), .iv (bin (-4585800659723217) 48, whole 0 0), .ok⟩,
   ⟨163, .add (bin 5124095576030431 48, bin 5124095576030431 4) (bin 7 1, bin 7 1), .iv (bin 6109257994517727 48, bin 5124095576030487 4), .ok⟩,
   ⟨165, .add (bin 5124095576030431 56, bin 5124095576030431 4) (bin 7 1, bin 7 1), .iv (bin 4020713667324659 50, bin 5124095576030487 4), .ok⟩,
   ⟨167, .add (whole (-255) 0, bin 5124095576030431 52) (bin 513 1, bin 513 1), .iv (bin 3 1, bin 4532411718736573 44), .ok⟩,
   ⟨169, .add (bin (-9007199254740991) 52, bin (-1) 550) (bin 8195 1, bin 8195 1), .iv (bin 8191 1, bin 8195 1), .ok⟩,
   ⟨171, .add (bin 5124095576030431 48, bin 5124095576030431 4) (bin (-7) 1, bin (-7) 1), .iv (bin 4138933157543135 48, bin 5124095576030375 4), .ok⟩,
   ⟨173, .add (bin 5124095576030431 56, bin 5124095576030431 4) (bin (-7) 1, bin (-7) 1), .iv (bin (-3860585680573709) 50, bin 5124095576030375 4), .ok⟩,
   ⟨175, .add (whole (-255) 0, bin 5124095576030431 52) (bin (-513) 1, bin (-513) 1), .iv (bin (-1023) 1, bin (-4492379722048835) 44), .ok⟩,
   ⟨177, .add (bin (-9007199254740991) 52, bin (-1) 550) (bin (-8195) 1, bin (-8195) 1), .iv (bin (-8199) 1, bin (-8195) 1), .ok⟩]

theorem mpfi_add_d_agree : ∀ r ∈ mpfi_add_d, r.agrees libm = true := by decide +kernel

/-- mpfi.py, `TestCase_mpfi_d_div`. -/
def mpfi_d_div : List Run :=
  [⟨249, .div (bin (-3245185536584267) 106, bin (-3245185536584267) 106) (.ninf, whole (-7) 0), .iv (whole 0 0, bin 7417566940764039 110), .ok⟩,
   ⟨251, .div (whole 0 0, whole 0 0) (.ninf, whole (-7) 0), .iv (whole 0 0, whole 0 0), .ok⟩,
   ⟨253, .div (bin 3245185536584267 106, bin 3245185536584267 106) (.ninf, whole (-7) 0), .iv (bin (-7417566940764039) 110, whole 0 0), .ok⟩,
   ⟨255, .div (bin (-6490371073168535) 106, bin (-6490371073168535) 106) (.ninf, whole 0 0), .iv (whole 0 0, .pinf), .raised .valueError⟩,
   ⟨257, .div (whole 0 0, whole 0 0) (.ninf, whole 0 0), .iv (whole 0 0, whole 0 0), .raised .valueError⟩,
   ⟨259, .div (bin 6490371073168535 106, bin 6490371073168535 106) (.ninf, whole 0 0), .iv (.ninf, whole 0 0), .raised .valueError⟩,
   ⟨261, .div (whole (-762939453125) 21, whole (-762939453125) 21) (.ninf, whole 8 0), .iv (.ninf, .pinf), .raised .valueError⟩,
   ⟨263, .div (whole 0 0, whole 0 0) (.ninf, whole 8 0), .iv (whole 0 0, whole 0 0), .raised .valueError⟩,
   ⟨265, .div (whole 762939453125 21, whole 762939453125 21) (.ninf, whole 8 0), .iv (.ninf, .pinf), .raised .valueError⟩,
   ⟨267, .div (bin (-6490371073168535) 105, bin (-6490371073168535) 105) (.ninf, .pinf), .iv (.ninf, .pinf), .raised .valueError⟩,
   ⟨269, .div (whole 0 0, whole 0 0) (.ninf, .pinf), .iv (whole 0 0, whole 0 0), .raised .valueError⟩,
   ⟨271, .div (bin 6490371073168535 105, bin 6490371073168535 105) (.ninf, .pinf), .iv (.ninf, .pinf), .raised .valueError⟩,
   ⟨273, .div (bin (-6490371073168535) 109, bin (-6490371073168535) 109) (whole 0 0, whole 0 0), .iv (.nan, .nan), .raised .valueError⟩,
   ⟨275, .div (whole 0 0, whole 0 0) (whole 0 0, whole 0 0), .iv (.nan, .nan), .raised .valueError⟩,
   ⟨277, .div (bin 6490371073168535 109, bin 6490371073168535 109) (whole 0 0, whole 0 0), .iv (.nan, .nan), .raised .valueError⟩,
   ⟨279, .div (bin (-4867778304876401) 107, bin (-4867778304876401) 107) (whole 0 0, whole 7 0), .iv (.ninf, bin (-5563175205573029) 110), .raised .valueError⟩,
   ⟨281, .div (whole 0 0, whole 0 0) (whole 0 0, whole 7 0), .iv (whole 0 0, whole 0 0), .raised .valueError⟩,
   ⟨283, .div (bin 4867778304876401 107, bin 4867778304876401 107) (whole 0 0, whole 7 0), .iv (bin 5563175205573029 110, .pinf), .raised .valueError⟩,
   ⟨285, .div (bin (-1419768672255617) 104, bin (-1419768672255617) 104) (whole 0 0, .pinf), .iv (.ninf, whole 0 0), .raised .valueError⟩,
   ⟨287, .div (whole 0 0, whole 0 0) (whole 0 0, .pinf), .iv (whole 0 0, whole 0 0), .raised .valueError⟩,
   ⟨289, .div (bin 5679074689022467 106, bin 5679074689022467 106) (whole 0 0, .pinf), .iv (whole 0 0, .pinf), .raised .valueError⟩,
   ⟨292, .div (bin (-5) 1, bin (-5) 1) (whole (-8) 0, whole 8 0), .iv (.ninf, .pinf), .raised .valueError⟩,
   ⟨294, .div (bin (-5) 1, bin (-5) 1) (whole (-8) 0, whole (-5) 0), .iv (bin 5 4, bin 1 1), .ok⟩,
   ⟨296, .div (bin (-5) 1, bin (-5) 1) (whole 25 0, whole 40 0), .iv (bin (-3602879701896397) 55, bin (-1) 4), .ok⟩,
   ⟨298, .div (bin (-5) 1, bin (-5) 1) (whole (-16) 0, whole (-7) 0), .iv (bin 5 5, bin 6433713753386423 54), .ok⟩,
   ⟨300, .div (bin (-5) 1, bin (-5) 1) (whole 11 0, whole 143 0), .iv (bin (-1023545369856931) 52, bin (-2519496295032445) 57), .ok⟩,
   ⟨302, .div (bin 265 3, bin 265 3) (bin 265 5, whole 530 0), .iv (bin 1 4, whole 4 0), .ok⟩,
   ⟨304, .div (bin 265 3, bin 265 3) (whole (-530) 0, bin (-3975) 3), .iv (bin (-2401919801264265) 55, bin (-1) 4), .ok⟩,
   ⟨306, .div (bin 265 3, bin 265 3) (whole 54 0, whole 265 0), .iv (bin 1 3, bin 5525249542838803 53), .ok⟩,
   ⟨308, .div (bin 265 3, bin 265 3) (whole 52 0, whole 54 0), .iv (bin 2762624771419401 52, bin 717219892580037 50), .ok⟩]

theorem mpfi_d_div_agree : ∀ r ∈ mpfi_d_div, r.agrees libm = true := by decide +kernel

/-- mpfi.py, `TestCase_mpfi_d_sub`. -/
def mpfi_d_sub : List Run :=
  [⟨527, .sub (bin (-6490371073168535) 107, bin (-6490371073168535) 107) (.ninf, whole (-7) 0), .iv (bin 7881299347898367 50, .pinf), .ok⟩,
   ⟨529, .sub (whole 0 0, whole 0 0) (.ninf, whole (-7) 0), .iv (whole 7 0, .pinf), .ok⟩,
   ⟨531, .sub (bin 6490371073168535 107, bin 6490371073168535 107) (.ninf, whole (-7) 0), .iv (whole 7 0, .pinf), .ok⟩,
   ⟨533, .sub (bin (-6490371073168535) 96, bin (-6490371073168535) 96) (.ninf, whole 0 0), .iv (bin (-6490371073168535) 96, .pinf), .ok⟩,
   ⟨535, .sub (whole 0 0, whole 0 0) (.ninf, whole 0 0), .iv (whole 0 0, .pinf), .ok⟩,
   ⟨537, .sub (bin 6490371073168535 96, bin 6490371073168535 96) (.ninf, whole 0 0), .iv (bin 6490371073168535 96, .pinf), .ok⟩,
   ⟨539, .sub (whole (-762939453125) 21, whole (-762939453125) 21) (.ninf, whole 8 0), .iv (whole (-1600000000000000256) 0, .pinf), .ok⟩,
   ⟨541, .sub (whole 0 0, whole 0 0) (.ninf, whole 8 0), .iv (whole (-8) 0, .pinf), .ok⟩,
   ⟨543, .sub (whole 762939453125 21, whole 762939453125 21) (.ninf, whole 8 0), .iv (whole 1599999999999999744 0, .pinf), .ok⟩,
   ⟨545, .sub (bin (-6490371073168535) 105, bin (-6490371073168535) 105) (.ninf, .pinf), .iv (.ninf, .pinf), .ok⟩,
   ⟨547, .sub (whole 0 0, whole 0 0) (.ninf, .pinf), .iv (.ninf, .pinf), .ok⟩,
   ⟨549, .sub (bin 6490371073168535 105, bin 6490371073168535 105) (.ninf, .pinf), .iv (.ninf, .pinf), .ok⟩,
   ⟨551, .sub (bin (-6490371073168535) 109, bin (-6490371073168535) 109) (whole 0 0, whole 0 0), .iv (bin (-6490371073168535) 109, bin (-6490371073168535) 109), .ok⟩,
   ⟨553, .sub (whole 0 0, whole 0 0) (whole 0 0, whole 0 0), .iv (whole 0 0, whole 0 0), .ok⟩,
   ⟨555, .sub (bin 6490371073168535 109, bin 6490371073168535 109) (whole 0 0, whole 0 0), .iv (bin 6490371073168535 109, bin 6490371073168535 109), .ok⟩,
   ⟨557, .sub (bin (-4867778304876401) 107, bin (-4867778304876401) 107) (whole 0 0, whole 8 0), .iv (bin (-4503599627370497) 49, bin (-4867778304876401) 107), .ok⟩,
   ⟨559, .sub (whole 0 0, whole 0 0) (whole 0 0, whole 8 0), .iv (whole (-8) 0, whole 0 0), .ok⟩,
   ⟨561, .sub (bin 4867778304876401 107, bin 4867778304876401 107) (whole 0 0, whole 8 0), .iv (whole (-8) 0, bin 4867778304876401 107), .ok⟩,
   ⟨563, .sub (bin (-1419768672255617) 104, bin (-1419768672255617) 104) (whole 0 0, .pinf), .iv (.ninf, bin (-1419768672255617) 104), .ok⟩,
   ⟨565, .sub (whole 0 0, whole 0 0) (whole 0 0, .pinf), .iv (.ninf, whole 0 0), .ok⟩,
   ⟨567, .sub (bin (-5679074689022467) 106, bin (-5679074689022467) 106) (whole 0 0, .pinf), .iv (.ninf, bin (-5679074689022467) 106), .ok⟩,
   ⟨570, .sub (bin (-4421398595017775) 47, bin (-4421398595017775) 47) (whole 17 0, whole 32 0), .iv (bin (-8924998222388271) 47, bin (-6813935897058351) 47), .ok⟩,
   ⟨572, .sub (bin 4421398595017775 47, bin 4421398595017775 47) (whole 17 0, bin 4421398595017775 47), .iv (whole 0 0, bin 2028861292977199 47), .ok⟩,
   ⟨574, .sub (bin 4421398595017775 48, bin 4421398595017775 48) (bin 4421398595017775 48, whole 32 0), .iv (bin (-4585800659723217) 48, whole 0 0), .ok⟩,
   ⟨576, .sub (bin 7 1, bin 7 1) (bin (-5124095576030431) 4, bin (-5124095576030431) 48), .iv (bin 6109257994517727 48, bin 5124095576030487 4), .ok⟩,
   ⟨578, .sub (bin 7 1, bin 7 1) (bin (-5124095576030431) 4, bin (-5124095576030431) 56), .iv (bin 4020713667324659 50, bin 5124095576030487 4), .ok⟩,
   ⟨580, .sub (bin 513 1, bin 513 1) (bin (-5124095576030431) 52, whole 255 0), .iv (bin 3 1, bin 4532411718736573 44), .ok⟩,
   ⟨582, .sub (bin 8195 1, bin 8195 1) (bin 1 550, bin 9007199254740991 52), .iv (bin 8191 1, bin 8195 1), .ok⟩,
   ⟨584, .sub (bin (-7) 1, bin (-7) 1) (bin (-5124095576030431) 4, bin (-5124095576030431) 48), .iv (bin 4138933157543135 48, bin 5124095576030375 4), .ok⟩,
   ⟨586, .sub (bin (-7) 1, bin (-7) 1) (bin (-5124095576030431) 4, bin (-5124095576030431) 56), .iv (bin (-3860585680573709) 50, bin 5124095576030375 4), .ok⟩,
   ⟨588, .sub (bin (-513) 1, bin (-513) 1) (bin (-5124095576030431) 52, whole 255 0), .iv (bin (-1023) 1, bin (-4492379722048835) 44), .ok⟩,
   ⟨590, .sub (bin (-8195) 1, bin (-8195) 1) (bin 1 550, bin 9007199254740991 52), .iv (bin (-8199) 1, bin (-8195) 1), .ok⟩]

theorem mpfi_d_sub_agree : ∀ r ∈ mpfi_d_sub, r.agrees libm = true := by decide +kernel

/-- mpfi.py, `TestCase_mpfi_diam_abs`. -/
def mpfi_diam_abs : List Run :=
  [⟨315, .wid (.ninf, whole (-8) 0), .num (.pinf), .ok⟩,
   ⟨317, .wid (.ninf, whole 0 0), .num (.pinf), .ok⟩,
   ⟨319, .wid (.ninf, whole 5 0), .num (.pinf), .ok⟩,
   ⟨321, .wid (.ninf, .pinf), .num (.pinf), .ok⟩,
   ⟨323, .wid (.ninf, whole 0 0), .num (.pinf), .ok⟩,
   ⟨325, .wid (whole (-8) 0, whole 0 0), .num (whole 8 0), .ok⟩,
   ⟨327, .wid (whole 0 0, whole 0 0), .num (whole 0 0), .ok⟩,
   ⟨329, .wid (whole 0 0, whole 5 0), .num (whole 5 0), .ok⟩,
   ⟨331, .wid (whole 0 0, .pinf), .num (.pinf), .ok⟩,
   ⟨334, .wid (whole (-34) 0, whole (-17) 0), .num (whole 17 0), .ok⟩]

theorem mpfi_diam_abs_agree : ∀ r ∈ mpfi_diam_abs, r.agrees libm = true := by decide +kernel

/-- mpfi.py, `TestCase_mpfi_div`. -/
def mpfi_div : List Run :=
  [⟨341, .div (.ninf, whole (-7) 0) (whole (-1) 0, whole 8 0), .iv (.ninf, .pinf), .raised .valueError⟩,
   ⟨343, .div (.ninf, whole 0 0) (whole 8 0, .pinf), .iv (.ninf, whole 0 0), .ok⟩,
   ⟨345, .div (.ninf, whole 8 0) (whole 0 0, whole 8 0), .iv (.ninf, .pinf), .raised .valueError⟩,
   ⟨347, .div (.ninf, .pinf) (whole 0 0, whole 8 0), .iv (.ninf, .pinf), .raised .valueError⟩,
   ⟨349, .div (whole 0 0, whole 0 0) (.ninf, whole (-7) 0), .iv (whole 0 0, whole 0 0), .ok⟩,
   ⟨351, .div (whole 0 0, whole 8 0) (whole (-7) 0, whole 0 0), .iv (.ninf, whole 0 0), .raised .valueError⟩,
   ⟨353, .div (whole 0 0, whole 0 0) (whole 0 0, whole 8 0), .iv (whole 0 0, whole 0 0), .raised .valueError⟩,
   ⟨355, .div (whole 0 0, .pinf) (whole 0 0, whole 8 0), .iv (whole 0 0, .pinf), .raised .valueError⟩,
   ⟨357, .div (whole 0 0, whole 0 0) (whole 8 0, .pinf), .iv (whole 0 0, whole 0 0), .ok⟩,
   ⟨359, .div (whole 0 0, whole 0 0) (.ninf, .pinf), .iv (whole 0 0, whole 0 0), .raised .valueError⟩,
   ⟨361, .div (whole 0 0, whole 8 0) (whole (-7) 0, whole 8 0), .iv (.ninf, .pinf), .raised .valueError⟩,
   ⟨363, .div (whole 0 0, .pinf) (whole 0 0, whole 8 0), .iv (whole 0 0, .pinf), .raised .valueError⟩,
   ⟨366, .div (whole (-123456789) 0, whole (-30030) 0) (whole (-286) 0, whole (-9) 0), .iv (whole 105 0, whole 13717421 0), .ok⟩,
   ⟨368, .div (whole (-123456789) 0, bin (-5780959352562019) 56) (bin (-6552107678185509) 47, whole (-9) 0), .iv (bin 7947099670758849 62, whole 13717421 0), .ok⟩,
   ⟨370, .div (bin (-2277647111224011) 51, bin (-15015) 15) (whole (-286) 0, bin (-8315853735899979) 58), .iv (bin 105 16, bin 2467001226129627 46), .ok⟩,
   ⟨372, .div (bin (-2277647111224011) 51, bin (-5780959352562019) 56) (bin (-6552107678185509) 51, bin (-8315853735899979) 58), .iv (bin 7947099670758849 58, bin 2467001226129627 46), .ok⟩,
   ⟨374, .div (whole (-2763) 256, whole (-1785) 0) (whole (-7) 0, whole 0 0), .iv (whole 255 0, .pinf), .raised .valueError⟩,
   ⟨376, .div (whole (-256) 0, bin (-2073405802168615) 51) (bin (-3346276403124477) 51, whole 0 0), .iv (bin 2790501582390367 52, .pinf), .raised .valueError⟩,
   ⟨378, .div (bin (-5171198393001811) 52, bin (-5405422407663491) 53) (bin (-5196399342360963) 53, bin 2516902034167279 53), .iv (.ninf, .pinf), .raised .valueError⟩,
   ⟨380, .div (whole (-100) 0, whole (-15) 0) (whole 0 0, whole 3 0), .iv (.ninf, whole (-5) 0), .raised .valueError⟩,
   ⟨382, .div (whole (-2) 0, bin (-5171198393001811) 52) (whole 0 0, bin 5196399342360963 53), .iv (.ninf, bin (-8963517089970455) 52), .raised .valueError⟩,
   ⟨384, .div (whole (-4886718345) 0, whole (-480480) 0) (whole 1035 0, whole 4576 0), .iv (whole (-4721467) 0, whole (-105) 0), .ok⟩,
   ⟨386, .div (bin (-471617134751921) 49, bin (-15015) 52) (bin 2551833932242937 49, whole 143 202), .iv (bin (-3329330683307315) 54, bin (-105) 254), .ok⟩,
   ⟨388, .div (whole (-4886718345) 0, bin (-7611242865522409) 52) (bin 1035 17, bin 2771298092426729 54), .iv (whole (-4721467) 17, bin (-773058089336057) 46), .ok⟩,
   ⟨390, .div (bin (-471617134751921) 45, bin (-7611242865522409) 52) (bin 2551833932242937 53, bin 2771298092426729 46), .iv (bin (-3329330683307315) 46, bin (-773058089336057) 54), .ok⟩,
   ⟨392, .div (whole (-123456789) 0, whole 0 0) (whole (-144) 0, whole (-9) 0), .iv (whole 0 0, whole 13717421 0), .ok⟩,
   ⟨394, .div (bin (-5675177068786343) 56, whole 0 0) (bin (-1) 8, bin (-4325792289505695) 60), .iv (whole 0 0, bin 2954224754879335 47), .ok⟩,
   ⟨396, .div (whole (-64138178286) 0, whole 0 0) (whole (-45812984490) 0, whole 0 0), .iv (whole 0 0, .pinf), .raised .valueError⟩,
   ⟨398, .div (bin (-5171198393001811) 52, whole 0 0) (bin (-5196399342360963) 53, bin 2516902034167279 53), .iv (.ninf, .pinf), .raised .valueError⟩,
   ⟨400, .div (whole (-64138178286) 0, whole 0 0) (whole 0 0, whole 3 0), .iv (.ninf, whole 0 0), .raised .valueError⟩,
   ⟨402, .div (whole (-123456789) 0, whole 0 0) (whole 9 0, whole 144 0), .iv (whole (-13717421) 0, whole 0 0), .ok⟩,
   ⟨404, .div (bin (-5675177068786343) 56, whole 0 0) (bin 4325792289505695 60, whole 9 0), .iv (bin (-2954224754879335) 47, whole 0 0), .ok⟩,
   ⟨406, .div (whole (-123456789) 0, whole 42624 0) (whole (-2806) 0, whole (-9) 0), .iv (whole (-4736) 0, whole 13717421 0), .ok⟩,
   ⟨408, .div (whole (-18) 0, whole 16 0) (whole (-806308527035) 0, whole (-9) 0), .iv (bin (-8006399337547549) 52, whole 2 0), .ok⟩,
   ⟨410, .div (whole (-1) 0, bin 15015 15) (whole (-879609302220) 0, whole (-286) 0), .iv (bin (-105) 16, bin 4031194072051913 60), .ok⟩,
   ⟨412, .div (bin (-1598450905485467) 51, bin 7769504329080037 50) (whole (-15246561238493) 0, bin (-7292732015706145) 53), .iv (bin (-2399014301220707) 48, bin 7896939458968817 53), .ok⟩,
   ⟨414, .div (whole (-2763) 256, whole 1785 0) (whole (-7) 0, whole 0 0), .iv (.ninf, .pinf), .raised .valueError⟩,
   ⟨416, .div (bin (-5171198393001811) 52, bin 5405422407663491 53) (bin (-5196399342360963) 53, bin 2516902034167279 53), .iv (.ninf, .pinf), .raised .valueError⟩,
   ⟨418, .div (whole 0 0, whole 15 0) (whole (-3) 0, whole 3 0), .iv (.ninf, .pinf), .raised .valueError⟩,
   ⟨420, .div (whole (-30030) 0, whole 54765425 14) (whole 286 0, whole 3003 0), .iv (whole (-105) 0, whole 382975 13), .ok⟩,
   ⟨422, .div (whole (-16) 0, whole 54765425 14) (whole 286 0, whole 3003 0), .iv (bin (-4031194072051913) 56, whole 382975 13), .ok⟩,
   ⟨424, .div (whole (-30030) 0, whole 1 10) (whole 286 0, whole 3003 0), .iv (whole (-105) 0, bin 4031194072051913 50), .ok⟩,
   ⟨426, .div (bin (-4929331317635111) 52, bin 585731375395479 48) (bin 5175489230490571 52, whole 273 0), .iv (bin (-8578796591634661) 53, bin 8155053905797417 52), .ok⟩,
   ⟨428, .div (whole 0 0, whole 123456789 0) (whole (-10) 0, whole (-9) 0), .iv (whole (-13717421) 0, whole 0 0), .ok⟩,
   ⟨430, .div (whole 0 0, bin 7542587223897837 52) (bin (-15) 4, bin (-1002061344321387) 50), .iv (bin (-8474728918407687) 52, whole 0 0), .ok⟩,
   ⟨432, .div (whole 0 0, whole 10 0) (whole (-9) 0, whole 0 0), .iv (.ninf, whole 0 0), .raised .valueError⟩,
   ⟨434, .div (whole 0 0, whole 10 0) (whole (-1) 0, whole 1 0), .iv (.ninf, .pinf), .raised .valueError⟩,
   ⟨436, .div (whole 0 0, whole 123456789 0) (whole 9 0, whole 10 0), .iv (whole 0 0, whole 13717421 0), .ok⟩,
   ⟨438, .div (whole 0 0, bin 6182211322168943 52) (bin 5010926117885671 51, whole 10 0), .iv (whole 0 0, bin 86817174459863 47), .ok⟩,
   ⟨440, .div (whole 30030 0, whole 123456789 0) (whole (-286) 0, whole (-9) 0), .iv (whole (-13717421) 0, whole (-105) 0), .ok⟩,
   ⟨442, .div (bin 15015 15, bin 4513098699142765 48) (whole (-286) 0, bin (-5149700644202901) 51), .iv (bin (-986717045515355) 47, bin (-105) 16), .ok⟩,
   ⟨444, .div (bin 5445341535265423 53, whole 123456789 0) (bin (-2974824302408595) 47, whole (-9) 0), .iv (whole (-13717421) 0, bin (-4121863279332269) 57), .ok⟩,
   ⟨446, .div (bin 3964094341502505 52, bin 2307199908872225 51) (bin (-5688000317571777) 54, bin (-6411977875200279) 55), .iv (bin (-6482058954104947) 50, bin (-6277318144339885) 51), .ok⟩,
   ⟨448, .div (whole 30030 0, whole 61166 0) (whole (-286) 0, whole 0 0), .iv (.ninf, whole (-105) 0), .raised .valueError⟩,
   ⟨450, .div (bin 3738387460802675 55, whole 61166 0) (bin (-998750116872905) 50, whole 0 0), .iv (.ninf, bin (-8428634996385155) 56), .raised .valueError⟩,
   ⟨452, .div (whole 5 0, whole 6 0) (bin (-5688000317571777) 54, bin 6411977875200279 55), .iv (.ninf, .pinf), .raised .valueError⟩,
   ⟨454, .div (whole 30030 0, whole 978670 0) (whole 0 0, whole 286 0), .iv (whole 105 0, .pinf), .raised .valueError⟩,
   ⟨456, .div (bin 6738078552524901 52, whole 978670 0) (whole 0 0, bin 5782367658968761 52), .iv (bin 327997217663043 48, .pinf), .raised .valueError⟩,
   ⟨458, .div (whole 1593578642 0, whole 7418529635 0) (whole 3136799 0, whole 8952689 0), .iv (whole 178 0, whole 2365 0), .ok⟩,
   ⟨460, .div (bin 4149571865248643 59, whole 7418529635 0) (bin 3136799 20, bin 1002061344321387 46), .iv (bin 2331195890848469 62, whole 2365 20), .ok⟩,
   ⟨462, .div (bin 796789321 31, bin 4513098699142765 52) (bin 5149700644202901 51, bin 8952689 20), .iv (bin 89 11, bin 986717045515355 51), .ok⟩,
   ⟨464, .div (bin 2326628837736043 56, bin 8106430610894927 51) (bin 4595911796503497 53, bin 6798993273937045 53), .iv (bin 1541140628396291 55, bin 7943607165460839 50), .ok⟩]

theorem mpfi_div_agree : ∀ r ∈ mpfi_div, r.agrees libm = true := by decide +kernel

/-- mpfi.py, `TestCase_mpfi_div_d`. -/
def mpfi_div_d : List Run :=
  [⟨471, .div (.ninf, whole (-7) 0) (whole (-7) 0, whole (-7) 0), .iv (whole 1 0, .pinf), .ok⟩,
   ⟨473, .div (.ninf, whole (-7) 0) (whole 0 0, whole 0 0), .iv (.nan, .nan), .raised .valueError⟩,
   ⟨475, .div (.ninf, whole (-7) 0) (whole 7 0, whole 7 0), .iv (.ninf, whole (-1) 0), .ok⟩,
   ⟨477, .div (.ninf, whole 0 0) (bin (-6490371073168535) 106, bin (-6490371073168535) 106), .iv (whole 0 0, .pinf), .ok⟩,
   ⟨479, .div (.ninf, whole 0 0) (bin 6490371073168535 106, bin 6490371073168535 106), .iv (.ninf, whole 0 0), .ok⟩,
   ⟨481, .div (.ninf, whole 8 0) (whole (-3) 0, whole (-3) 0), .iv (bin (-3002399751580331) 50, .pinf), .ok⟩,
   ⟨483, .div (.ninf, whole 8 0) (whole 0 0, whole 0 0), .iv (.nan, .nan), .raised .valueError⟩,
   ⟨485, .div (.ninf, whole 8 0) (whole 3 0, whole 3 0), .iv (.ninf, bin 3002399751580331 50), .ok⟩,
   ⟨487, .div (.ninf, .pinf) (bin (-6490371073168535) 105, bin (-6490371073168535) 105), .iv (.ninf, .pinf), .ok⟩,
   ⟨489, .div (.ninf, .pinf) (whole 0 0, whole 0 0), .iv (.nan, .nan), .raised .valueError⟩,
   ⟨491, .div (.ninf, .pinf) (bin 6490371073168535 105, bin 6490371073168535 105), .iv (.ninf, .pinf), .ok⟩,
   ⟨493, .div (whole 0 0, whole 0 0) (bin (-6490371073168535) 109, bin (-6490371073168535) 109), .iv (whole 0 0, whole 0 0), .ok⟩,
   ⟨495, .div (whole 0 0, whole 0 0) (bin 6490371073168535 109, bin 6490371073168535 109), .iv (whole 0 0, whole 0 0), .ok⟩,
   ⟨497, .div (whole 0 0, whole 8 0) (bin (-4867778304876401) 107, bin (-4867778304876401) 107), .iv (whole (-266666666666666688) 0, whole 0 0), .ok⟩,
   ⟨499, .div (whole 0 0, whole 8 0) (bin 4867778304876401 107, bin 4867778304876401 107), .iv (whole 0 0, whole 266666666666666688 0), .ok⟩,
   ⟨501, .div (whole 0 0, .pinf) (bin (-1419768672255617) 104, bin (-1419768672255617) 104), .iv (.ninf, whole 0 0), .ok⟩,
   ⟨503, .div (whole 0 0, .pinf) (bin 5679074689022467 106, bin 5679074689022467 106), .iv (whole 0 0, .pinf), .ok⟩,
   ⟨506, .div (bin (-4503599627370497) 20, bin (-4503599627370497) 53) (whole (-1) 0, whole (-1) 0), .iv (bin 4503599627370497 53, bin 4503599627370497 20), .ok⟩,
   ⟨508, .div (bin (-2251799813685249) 19, bin (-4503599627370497) 53) (bin 4503599627370497 53, bin 4503599627370497 53), .iv (bin (-4503599627370497) 19, whole (-1) 0), .ok⟩,
   ⟨510, .div (bin (-4503599627370497) 20, bin (-4503600164241409) 53) (bin 4503599627370497 53, bin 4503599627370497 53), .iv (whole (-1) 33, bin (-4503600164241407) 52), .ok⟩,
   ⟨512, .div (bin (-2251799813685249) 19, bin (-4503600164241409) 53) (bin 4503599627370497 53, bin 4503599627370497 53), .iv (bin (-4503599627370497) 19, bin (-4503600164241407) 52), .ok⟩,
   ⟨514, .div (bin (-5124095576030431) 53, bin 5124095576030431 7) (whole (-5124095576030431) 0, whole (-5124095576030431) 0), .iv (bin (-1) 7, bin 1 53), .ok⟩,
   ⟨516, .div (bin (-5124095576030431) 53, bin 4503599627370497 53) (whole (-5124095576030431) 0, whole (-5124095576030431) 0), .iv (bin (-3958241859993601) 105, bin 1 53), .ok⟩,
   ⟨518, .div (whole (-1) 0, bin 5124095576030431 7) (whole (-5124095576030431) 0, whole (-5124095576030431) 0), .iv (bin (-1) 7, bin 7916483719987201 105), .ok⟩,
   ⟨520, .div (whole (-1) 0, bin 4503599627370497 53) (whole (-5124095576030431) 0, whole (-5124095576030431) 0), .iv (bin (-3958241859993601) 105, bin 7916483719987201 105), .ok⟩]

theorem mpfi_div_d_agree : ∀ r ∈ mpfi_div_d, r.agrees libm = true := by decide +kernel

/-- mpfi.py, `TestCase_mpfi_mid`. -/
def mpfi_mid : List Run :=
  [⟨682, .mid (whole (-8) 0, whole 0 0), .num (whole (-4) 0), .ok⟩,
   ⟨684, .mid (whole 0 0, whole 0 0), .num (whole 0 0), .ok⟩,
   ⟨686, .mid (whole 0 0, whole 5 0), .num (bin 5 1), .ok⟩,
   ⟨689, .mid (whole (-34) 0, whole (-17) 0), .num (bin (-51) 1), .ok⟩,
   ⟨691, .mid (whole (-34) 0, whole 17 0), .num (bin (-17) 1), .ok⟩,
   ⟨693, .mid (whole 0 0, bin 320255973501901 2), .num (bin 320255973501901 3), .ok⟩,
   ⟨695, .mid (bin 884279719003555 48, bin 7074237752028441 51), .num (bin 884279719003555 48), .ok⟩,
   ⟨697, .mid (bin (-7074237752028441) 51, bin (-884279719003555) 48), .num (bin (-884279719003555) 48), .ok⟩,
   ⟨699, .mid (whole (-4) 0, bin (-2251799813685245) 51), .num (bin (-2814749767106559) 50), .ok⟩,
   ⟨701, .mid (whole (-8) 0, bin (-2251799813685243) 51), .num (bin (-5066549580791807) 50), .ok⟩,
   ⟨703, .mid (bin (-9007199254740991) 53, whole 2 0), .num (bin 1 1), .ok⟩]

theorem mpfi_mid_agree : ∀ r ∈ mpfi_mid, r.agrees libm = true := by decide +kernel

/-- mpfi.py, `TestCase_mpfi_mul`. -/
def mpfi_mul : List Run :=
  [⟨715, .mul (.ninf, whole (-7) 0) (whole (-1) 0, whole 8 0), .iv (.ninf, .pinf), .ok⟩,
   ⟨717, .mul (.ninf, whole 0 0) (whole 8 0, .pinf), .iv (.ninf, whole 0 0), .ok⟩,
   ⟨719, .mul (.ninf, whole 8 0) (whole 0 0, whole 8 0), .iv (.ninf, whole 64 0), .got (.nan) (.nan)⟩,
   ⟨721, .mul (.ninf, .pinf) (whole 0 0, whole 0 0), .iv (whole 0 0, whole 0 0), .got (.nan) (.nan)⟩,
   ⟨723, .mul (.ninf, .pinf) (whole 0 0, whole 8 0), .iv (.ninf, .pinf), .got (.nan) (.nan)⟩,
   ⟨725, .mul (whole 0 0, whole 0 0) (.ninf, whole (-7) 0), .iv (whole 0 0, whole 0 0), .got (.nan) (.nan)⟩,
   ⟨727, .mul (whole 0 0, whole 8 0) (whole (-7) 0, whole 0 0), .iv (whole (-56) 0, whole 0 0), .ok⟩,
   ⟨729, .mul (whole 0 0, whole 0 0) (whole 0 0, whole 8 0), .iv (whole 0 0, whole 0 0), .ok⟩,
   ⟨731, .mul (whole 0 0, .pinf) (whole 0 0, whole 8 0), .iv (whole 0 0, .pinf), .ok⟩,
   ⟨733, .mul (whole 0 0, whole 0 0) (whole 8 0, .pinf), .iv (whole 0 0, whole 0 0), .ok⟩,
   ⟨735, .mul (whole 0 0, whole 0 0) (.ninf, .pinf), .iv (whole 0 0, whole 0 0), .got (.nan) (.nan)⟩,
   ⟨737, .mul (whole 0 0, whole 8 0) (whole (-7) 0, whole 8 0), .iv (whole (-56) 0, whole 64 0), .ok⟩,
   ⟨739, .mul (whole 0 0, whole 0 0) (whole 0 0, whole 0 0), .iv (whole 0 0, whole 0 0), .ok⟩,
   ⟨741, .mul (whole 0 0, .pinf) (whole 0 0, whole 8 0), .iv (whole 0 0, .pinf), .ok⟩,
   ⟨743, .mul (whole (-3) 0, whole 7 0) (whole 0 0, whole 0 0), .iv (whole 0 0, whole 0 0), .ok⟩,
   ⟨746, .mul (whole (-13) 0, whole (-9) 0) (whole (-4) 0, whole (-2) 0), .iv (whole 18 0, whole 52 0), .ok⟩,
   ⟨748, .mul (whole (-13) 0, bin (-981013020756255) 50) (whole (-4) 0, bin (-360781705111839) 53), .iv (bin 5029669841368297 57, whole 52 0), .ok⟩,
   ⟨750, .mul (bin (-7966596657500009) 53, bin (-4581640750850607) 53) (bin (-1561897506113237) 52, bin (-1803872025114301) 53), .iv (bin 917565310352485 53, bin 5525805347321417 54), .ok⟩,
   ⟨752, .mul (whole (-55) 0, whole (-7) 0) (whole (-1) 0, whole 34 0), .iv (whole (-1870) 0, whole 55 0), .ok⟩,
   ⟨754, .mul (bin (-1973758986250893) 51, bin (-51) 8) (whole (-1) 0, bin 3302750591231247 51), .iv (bin (-5789887377350421) 52, bin 1973758986250893 51), .ok⟩,
   ⟨756, .mul (bin (-1010073612768053) 45, bin (-51) 8) (bin (-784747789943779) 49, whole 1 0), .iv (bin (-1010073612768053) 45, bin 5632138562107927 47), .ok⟩,
   ⟨758, .mul (bin (-1010073612768053) 45, bin (-51) 8) (bin (-784747789943779) 49, bin 8644884847064869 48), .iv (bin (-3877773688571389) 42, bin 5632138562107927 47), .ok⟩,
   ⟨760, .mul (whole (-78187493530) 0, whole (-1) 0) (whole 1 0, whole 16 0), .iv (whole (-1250999896480) 0, whole (-1) 0), .ok⟩,
   ⟨762, .mul (bin (-803854482988885) 50, bin (-1) 1) (whole 2 0, bin 576068101321695 48), .iv (bin (-6580690492147877) 52, whole (-1) 0), .ok⟩,
   ⟨764, .mul (whole (-4) 0, bin (-1447776191651223) 55) (bin 6654870335973325 53, whole 4 0), .iv (whole (-16) 0, bin (-8557388425377037) 58), .ok⟩,
   ⟨766, .mul (bin (-803854482988885) 50, bin (-1447776191651223) 55) (bin 6654870335973325 53, bin 576068101321695 48), .iv (bin (-6580690492147877) 52, bin (-8557388425377037) 58), .ok⟩,
   ⟨768, .mul (whole (-1) 0, whole 17 0) (whole (-7) 0, whole (-4) 0), .iv (whole (-119) 0, whole 7 0), .ok⟩,
   ⟨770, .mul (whole (-1) 0, bin 2081645824688825 51) (bin (-2512489455883405) 50, bin (-1) 4), .iv (bin (-1161318415968535) 49, bin 2512489455883405 50), .ok⟩,
   ⟨772, .mul (bin (-5014227875956545) 44, whole 1 0) (bin (-2512489455883405) 50, bin (-1) 4), .iv (bin (-2512489455883405) 50, bin 2797361157766401 42), .ok⟩,
   ⟨774, .mul (bin (-2081645824688825) 51, bin 5014227875956545 44) (bin (-2512489455883405) 50, bin (-1) 4), .iv (bin (-2797361157766401) 42, bin 1161318415968535 49), .ok⟩,
   ⟨776, .mul (whole (-1) 0, whole 16 0) (whole (-2) 0, whole 3 0), .iv (whole (-32) 0, whole 48 0), .ok⟩,
   ⟨778, .mul (whole (-1) 0, bin 6430257117841917 55) (bin (-2726774217108935) 54, bin 1 8), .iv (bin (-3893298865145789) 57, bin 2726774217108935 54), .ok⟩,
   ⟨780, .mul (whole (-1) 0, bin 968708390260917 51) (bin (-1) 4, bin 3503040989656361 51), .iv (bin (-3503040989656361) 51, bin 6027934059652337 53), .ok⟩,
   ⟨782, .mul (bin (-4888461417488605) 52, bin 1 8) (bin (-5559011119518465) 51, bin 144621635301695 48), .iv (bin (-5023375737113469) 53, bin 6034064665073869 51), .ok⟩,
   ⟨784, .mul (whole (-7) 0, whole 7 0) (whole 19 0, whole 36 0), .iv (whole (-252) 0, whole 252 0), .ok⟩,
   ⟨786, .mul (bin (-738994188715163) 50, whole 16 0) (whole 2 0, bin 2478316942128365 50), .iv (bin (-6506659453106049) 52, bin 2478316942128365 46), .ok⟩,
   ⟨788, .mul (whole (-1) 0, bin 7048576189133139 52) (bin 1 53, bin 2851519865906189 51), .iv (bin (-2851519865906189) 51, bin 4462908937889251 51), .ok⟩,
   ⟨790, .mul (bin (-1988152675581375) 50, bin 876783607687311 49) (whole 2 0, bin 7362931988175587 51), .iv (bin (-6500858932241277) 50, bin 5733811711427081 50), .ok⟩,
   ⟨792, .mul (whole 12 0, whole 45 0) (whole (-1657) 0, whole (-229) 0), .iv (whole (-74565) 0, whole (-2748) 0), .ok⟩,
   ⟨794, .mul (whole 12 0, bin 2464692456236581 41) (bin (-2586240079710387) 10, whole (-229) 0), .iv (whole (-2830751817163917) 0, whole (-2748) 0), .ok⟩,
   ⟨796, .mul (bin 6317673388304481 49, whole 45 0) (whole (-1657) 0, bin (-723326011191681) 46), .iv (whole (-74565) 0, bin (-8117484448131961) 46), .ok⟩,
   ⟨798, .mul (bin 1057788677665415 50, bin 3022517850334017 48) (bin (-6525674922071217) 50, bin (-5724619434411135) 59), .iv (bin (-4379600890266855) 46, bin (-5378309017401763) 59), .ok⟩,
   ⟨800, .mul (whole 1 0, whole 12 0) (whole (-229) 0, whole 1 0), .iv (whole (-2748) 0, whole 12 0), .ok⟩,
   ⟨802, .mul (bin 291 52, bin 2164467092363963 50) (bin (-6002117205218615) 53, whole 1 32), .iv (bin (-2884666988657803) 51, bin 2164467092363963 18), .ok⟩,
   ⟨804, .mul (whole 3 0, bin 4037220507707411 49) (whole (-1) 0, bin 6002117205218615 53), .iv (bin (-4037220507707411) 49, bin 168142379676301 45), .ok⟩,
   ⟨806, .mul (bin 3 4, bin 6002117205218615 53) (bin (-2164467092363963) 50, bin 4037220507707411 49), .iv (bin (-2884666988657803) 51, bin 168142379676301 45), .ok⟩,
   ⟨808, .mul (whole 3 0, whole 7 0) (whole 5 0, whole 11 0), .iv (whole 15 0, whole 77 0), .ok⟩,
   ⟨810, .mul (bin 5138842765473291 51, whole 7 0) (bin 7756347518956663 51, whole 11 0), .iv (bin 4425199133160879 49, whole 77 0), .ok⟩,
   ⟨812, .mul (whole 3 0, bin 7756347518956663 51) (bin 5 25, bin 5138842765473291 51), .iv (bin 15 25, bin 8850398266321759 50), .ok⟩,
   ⟨814, .mul (bin 26969260436153 47, bin 5138842765473291 51) (bin 861345156465979 50, bin 1474425239373713 49), .iv (bin 2640927260716801 54, bin 6729585310860059 50), .ok⟩]

theorem mpfi_mul_agree : ∀ r ∈ mpfi_mul, r.agrees libm = true := by decide +kernel

/-- mpfi.py, `TestCase_mpfi_mul_d`. -/
def mpfi_mul_d : List Run :=
  [⟨821, .mul (.ninf, whole (-7) 0) (whole (-23) 0, whole (-23) 0), .iv (whole 161 0, .pinf), .ok⟩,
   ⟨823, .mul (.ninf, whole (-7) 0) (whole 0 0, whole 0 0), .iv (whole 0 0, whole 0 0), .got (.nan) (.nan)⟩,
   ⟨825, .mul (.ninf, whole (-7) 0) (bin 6490371073168535 107, bin 6490371073168535 107), .iv (.ninf, bin (-1419768672255617) 102), .ok⟩,
   ⟨827, .mul (.ninf, whole 0 0) (bin (-6490371073168535) 106, bin (-6490371073168535) 106), .iv (whole 0 0, .pinf), .ok⟩,
   ⟨829, .mul (.ninf, whole 0 0) (whole 0 0, whole 0 0), .iv (whole 0 0, whole 0 0), .got (.nan) (.nan)⟩,
   ⟨831, .mul (.ninf, whole 0 0) (bin 6490371073168535 106, bin 6490371073168535 106), .iv (.ninf, whole 0 0), .ok⟩,
   ⟨833, .mul (.ninf, whole 8 0) (whole (-762939453125) 21, whole (-762939453125) 21), .iv (whole (-762939453125) 24, .pinf), .ok⟩,
   ⟨835, .mul (.ninf, whole 8 0) (whole 0 0, whole 0 0), .iv (whole 0 0, whole 0 0), .got (.nan) (.nan)⟩,
   ⟨837, .mul (.ninf, whole 8 0) (whole 762939453125 21, whole 762939453125 21), .iv (.ninf, whole 762939453125 24), .ok⟩,
   ⟨839, .mul (.ninf, .pinf) (bin (-6490371073168535) 105, bin (-6490371073168535) 105), .iv (.ninf, .pinf), .ok⟩,
   ⟨841, .mul (.ninf, .pinf) (whole 0 0, whole 0 0), .iv (whole 0 0, whole 0 0), .got (.nan) (.nan)⟩,
   ⟨843, .mul (.ninf, .pinf) (bin 6490371073168535 105, bin 6490371073168535 105), .iv (.ninf, .pinf), .ok⟩,
   ⟨845, .mul (whole 0 0, whole 0 0) (bin (-6490371073168535) 109, bin (-6490371073168535) 109), .iv (whole 0 0, whole 0 0), .ok⟩,
   ⟨847, .mul (whole 0 0, whole 0 0) (whole 0 0, whole 0 0), .iv (whole 0 0, whole 0 0), .ok⟩,
   ⟨849, .mul (whole 0 0, whole 0 0) (bin 6490371073168535 109, bin 6490371073168535 109), .iv (whole 0 0, whole 0 0), .ok⟩,
   ⟨851, .mul (whole 0 0, whole 7 0) (bin (-4867778304876401) 107, bin (-4867778304876401) 107), .iv (bin (-4259306016766851) 104, whole 0 0), .ok⟩,
   ⟨853, .mul (whole 0 0, whole 8 0) (whole 0 0, whole 0 0), .iv (whole 0 0, whole 0 0), .ok⟩,
   ⟨855, .mul (whole 0 0, whole 9 0) (bin 4867778304876401 103, bin 4867778304876401 103), .iv (whole 0 0, bin 171132831030811 95), .ok⟩,
   ⟨857, .mul (whole 0 0, .pinf) (bin (-1419768672255617) 104, bin (-1419768672255617) 104), .iv (.ninf, whole 0 0), .ok⟩,
   ⟨859, .mul (whole 0 0, .pinf) (whole 0 0, whole 0 0), .iv (whole 0 0, whole 0 0), .ok⟩,
   ⟨861, .mul (whole 0 0, .pinf) (bin 5679074689022467 106, bin 5679074689022467 106), .iv (whole 0 0, .pinf), .ok⟩,
   ⟨864, .mul (whole (-24211824) 0, bin (-1501199875790165) 122) (bin (-3) 1, bin (-3) 1), .iv (bin 4503599627370495 123, whole 36317736 0), .ok⟩,
   ⟨866, .mul (whole (-3002399751580330) 0, whole 1513239 405) (bin (-3) 1, bin (-3) 1), .iv (whole (-4539717) 404, whole 4503599627370495 0), .ok⟩,
   ⟨868, .mul (whole 4503599627370512 0, whole 18764998447377 657) (bin (-17) 3, bin (-17) 3), .iv (whole (-319004973605409) 654, whole (-9570149208162338) 0), .ok⟩,
   ⟨870, .mul (whole (-24211824) 0, bin (-1501199875790165) 122) (bin 3 1, bin 3 1), .iv (whole (-36317736) 0, bin (-4503599627370495) 123), .ok⟩,
   ⟨872, .mul (whole (-3002399751580330) 0, whole 1513239 405) (bin 3 1, bin 3 1), .iv (whole (-4503599627370495) 0, whole 4539717 404), .ok⟩,
   ⟨874, .mul (whole 4503599627370512 0, whole 18764998447377 657) (bin 17 3, bin 17 3), .iv (whole 9570149208162338 0, whole 319004973605409 654), .ok⟩,
   ⟨876, .mul (whole (-1513239) 40, whole (-4503599627370497) 0) (bin (-3) 1, bin (-3) 1), .iv (whole 6755399441055745 0, whole 4539717 39), .ok⟩,
   ⟨878, .mul (whole (-3002399751580330) 0, whole 4503599627370497 0) (bin (-3) 1, bin (-3) 1), .iv (whole (-6755399441055746) 0, whole 4503599627370495 0), .ok⟩,
   ⟨880, .mul (whole 4503599627370512 0, whole 4803839602528529 0) (bin (-17) 3, bin (-17) 3), .iv (whole (-10208159155373126) 0, whole (-9570149208162338) 0), .ok⟩,
   ⟨882, .mul (whole (-4503599627370497) 0, bin (-1501199875790165) 122) (bin 3 1, bin 3 1), .iv (whole (-6755399441055746) 0, bin (-4503599627370495) 123), .ok⟩,
   ⟨884, .mul (whole (-3002399751580331) 0, whole 1513239 405) (bin 3 1, bin 3 1), .iv (whole (-4503599627370497) 0, whole 4539717 404), .ok⟩,
   ⟨886, .mul (whole 4503599627370497 0, whole 18764998447377 657) (bin 17 3, bin 17 3), .iv (whole 9570149208162306 0, whole 319004973605409 654), .ok⟩,
   ⟨888, .mul (whole (-4909806652584305) 0, bin (-1501199875790165) 122) (bin (-3) 1, bin (-3) 1), .iv (bin 4503599627370495 123, whole 7364709978876458 0), .ok⟩,
   ⟨890, .mul (whole (-4503599627370497) 0, whole 1513239 405) (bin (-3) 1, bin (-3) 1), .iv (whole (-4539717) 404, whole 6755399441055746 0), .ok⟩,
   ⟨892, .mul (whole 4503599627370497 0, whole 18764998447377 657) (bin (-17) 3, bin (-17) 3), .iv (whole (-319004973605409) 654, whole (-9570149208162306) 0), .ok⟩,
   ⟨894, .mul (whole (-24211824) 0, bin (-3752999689475413) 122) (bin 3 1, bin 3 1), .iv (whole (-36317736) 0, bin (-5629499534213119) 122), .ok⟩,
   ⟨896, .mul (whole (-3002399751580330) 0, whole 4909806652584305 0) (bin 3 1, bin 3 1), .iv (whole (-4503599627370495) 0, whole 7364709978876458 0), .ok⟩,
   ⟨898, .mul (whole 4503599627370512 0, whole 6905519428634761 0) (bin 17 3, bin 17 3), .iv (whole 9570149208162338 0, whole 14674228785848868 0), .ok⟩,
   ⟨900, .mul (whole (-4909806652584305) 0, whole (-4503599627370497) 0) (bin (-3) 1, bin (-3) 1), .iv (whole 6755399441055745 0, whole 7364709978876458 0), .ok⟩,
   ⟨902, .mul (whole (-4503599627370497) 0, whole 4503599627370497 0) (bin (-3) 1, bin (-3) 1), .iv (whole (-6755399441055746) 0, whole 6755399441055746 0), .ok⟩,
   ⟨904, .mul (whole 4503599627370497 0, whole 4803839602528529 0) (bin (-17) 3, bin (-17) 3), .iv (whole (-10208159155373126) 0, whole (-9570149208162306) 0), .ok⟩,
   ⟨906, .mul (whole (-4503599627370497) 0, bin (-3752999689475413) 122) (bin 3 1, bin 3 1), .iv (whole (-6755399441055746) 0, bin (-5629499534213119) 122), .ok⟩,
   ⟨908, .mul (whole (-3002399751580331) 0, whole 4909806652584305 0) (bin 3 1, bin 3 1), .iv (whole (-4503599627370497) 0, whole 7364709978876458 0), .ok⟩,
   ⟨910, .mul (whole 4503599627370497 0, whole 6905519428634761 0) (bin 17 3, bin 17 3), .iv (whole 9570149208162306 0, whole 14674228785848868 0), .ok⟩]

theorem mpfi_mul_d_agree : ∀ r ∈ mpfi_mul_d, r.agrees libm = true := by decide +kernel

/-- mpfi.py, `TestCase_mpfi_neg`. -/
def mpfi_neg : List Run :=
  [⟨917, .neg (.ninf, whole (-7) 0), .iv (whole 7 0, .pinf), .ok⟩,
   ⟨919, .neg (.ninf, whole 0 0), .iv (whole 0 0, .pinf), .ok⟩,
   ⟨921, .neg (.ninf, whole 8 0), .iv (whole (-8) 0, .pinf), .ok⟩,
   ⟨923, .neg (.ninf, .pinf), .iv (.ninf, .pinf), .ok⟩,
   ⟨925, .neg (whole 0 0, whole 0 0), .iv (whole 0 0, whole 0 0), .ok⟩,
   ⟨927, .neg (whole 0 0, whole 8 0), .iv (whole (-8) 0, whole 0 0), .ok⟩,
   ⟨929, .neg (whole 0 0, .pinf), .iv (.ninf, whole 0 0), .ok⟩,
   ⟨932, .neg (bin 4886718345 16, bin 4886718361 16), .iv (bin (-4886718361) 16, bin (-4886718345) 16), .ok⟩]

theorem mpfi_neg_agree : ∀ r ∈ mpfi_neg, r.agrees libm = true := by decide +kernel

/-- mpfi.py, `TestCase_mpfi_sub`. -/
def mpfi_sub : List Run :=
  [⟨974, .sub (.ninf, whole (-7) 0) (whole (-1) 0, whole 8 0), .iv (.ninf, whole (-6) 0), .ok⟩,
   ⟨976, .sub (.ninf, whole 0 0) (whole 8 0, .pinf), .iv (.ninf, whole (-8) 0), .ok⟩,
   ⟨978, .sub (.ninf, whole 8 0) (whole 0 0, whole 8 0), .iv (.ninf, whole 8 0), .ok⟩,
   ⟨980, .sub (.ninf, .pinf) (whole 0 0, whole 8 0), .iv (.ninf, .pinf), .ok⟩,
   ⟨982, .sub (whole 0 0, whole 0 0) (.ninf, whole (-7) 0), .iv (whole 7 0, .pinf), .ok⟩,
   ⟨984, .sub (whole 0 0, whole 8 0) (whole (-7) 0, whole 0 0), .iv (whole 0 0, whole 15 0), .ok⟩,
   ⟨986, .sub (whole 0 0, whole 0 0) (whole 0 0, whole 8 0), .iv (whole (-8) 0, whole 0 0), .ok⟩,
   ⟨988, .sub (whole 0 0, .pinf) (whole 0 0, whole 8 0), .iv (whole (-8) 0, .pinf), .ok⟩,
   ⟨990, .sub (whole 0 0, whole 0 0) (whole 8 0, .pinf), .iv (.ninf, whole (-8) 0), .ok⟩,
   ⟨992, .sub (whole 0 0, whole 0 0) (.ninf, .pinf), .iv (.ninf, .pinf), .ok⟩,
   ⟨994, .sub (whole 0 0, whole 8 0) (whole (-7) 0, whole 8 0), .iv (whole (-8) 0, whole 15 0), .ok⟩,
   ⟨996, .sub (whole 0 0, whole 0 0) (whole 0 0, whole 0 0), .iv (whole 0 0, whole 0 0), .ok⟩,
   ⟨998, .sub (whole 0 0, .pinf) (whole 0 0, whole 8 0), .iv (whole (-8) 0, .pinf), .ok⟩,
   ⟨1001, .sub (whole (-5) 0, whole 59 0) (whole 17 0, whole 81 0), .iv (whole (-86) 0, whole 42 0), .ok⟩,
   ⟨1003, .sub (bin (-1) 300, whole 596523 29) (whole (-126462925) 0, bin 1 41), .iv (bin (-4503599627370497) 93, whole 320255973501901 0), .ok⟩,
   ⟨1005, .sub (whole (-4) 0, whole 7 0) (whole (-5043654821435445) 946, bin 320255973501901 17), .iv (bin (-320255974026189) 17, whole 2521827410717723 947), .ok⟩,
   ⟨1007, .sub (whole (-72058693566333184) 0, whole 1 60) (whole (-5043654821435445) 946, whole 281479271743489 0), .iv (whole (-72340172838076688) 0, whole 2521827410717723 947), .ok⟩,
   ⟨1009, .sub (whole (-5) 0, whole 1 0) (whole 1 0, whole 1 70), .iv (whole (-4503599627370497) 18, whole 0 0), .ok⟩,
   ⟨1011, .sub (whole 5 0, whole 1 70) (whole 3 0, whole 5 0), .iv (whole 0 0, whole 1 70), .ok⟩]

theorem mpfi_sub_agree : ∀ r ∈ mpfi_sub, r.agrees libm = true := by decide +kernel

/-- mpfi.py, `TestCase_mpfi_sub_d`. -/
def mpfi_sub_d : List Run :=
  [⟨1018, .sub (.ninf, whole (-7) 0) (bin (-6490371073168535) 107, bin (-6490371073168535) 107), .iv (.ninf, bin (-7881299347898367) 50), .ok⟩,
   ⟨1020, .sub (.ninf, whole (-7) 0) (whole 0 0, whole 0 0), .iv (.ninf, whole (-7) 0), .ok⟩,
   ⟨1022, .sub (.ninf, whole (-7) 0) (bin 6490371073168535 107, bin 6490371073168535 107), .iv (.ninf, whole (-7) 0), .ok⟩,
   ⟨1024, .sub (.ninf, whole 0 0) (bin (-6490371073168535) 106, bin (-6490371073168535) 106), .iv (.ninf, bin 6490371073168535 106), .ok⟩,
   ⟨1026, .sub (.ninf, whole 0 0) (whole 0 0, whole 0 0), .iv (.ninf, whole 0 0), .ok⟩,
   ⟨1028, .sub (.ninf, whole 0 0) (bin 6490371073168535 106, bin 6490371073168535 106), .iv (.ninf, bin (-6490371073168535) 106), .ok⟩,
   ⟨1030, .sub (.ninf, whole 8 0) (whole (-762939453125) 21, whole (-762939453125) 21), .iv (.ninf, whole 1600000000000000256 0), .ok⟩,
   ⟨1032, .sub (.ninf, whole 8 0) (whole 0 0, whole 0 0), .iv (.ninf, whole 8 0), .ok⟩,
   ⟨1034, .sub (.ninf, whole 8 0) (whole 762939453125 21, whole 762939453125 21), .iv (.ninf, whole (-1599999999999999744) 0), .ok⟩,
   ⟨1036, .sub (.ninf, .pinf) (bin (-6490371073168535) 105, bin (-6490371073168535) 105), .iv (.ninf, .pinf), .ok⟩,
   ⟨1038, .sub (.ninf, .pinf) (whole 0 0, whole 0 0), .iv (.ninf, .pinf), .ok⟩,
   ⟨1040, .sub (.ninf, .pinf) (bin 6490371073168535 105, bin 6490371073168535 105), .iv (.ninf, .pinf), .ok⟩,
   ⟨1042, .sub (whole 0 0, whole 0 0) (bin (-6490371073168535) 109, bin (-6490371073168535) 109), .iv (bin 6490371073168535 109, bin 6490371073168535 109), .ok⟩,
   ⟨1044, .sub (whole 0 0, whole 0 0) (whole 0 0, whole 0 0), .iv (whole 0 0, whole 0 0), .ok⟩,
   ⟨1046, .sub (whole 0 0, whole 0 0) (bin 6490371073168535 109, bin 6490371073168535 109), .iv (bin (-6490371073168535) 109, bin (-6490371073168535) 109), .ok⟩,
   ⟨1048, .sub (whole 0 0, whole 8 0) (bin (-4867778304876401) 107, bin (-4867778304876401) 107), .iv (bin 4867778304876401 107, bin 4503599627370497 49), .ok⟩,
   ⟨1050, .sub (whole 0 0, whole 8 0) (whole 0 0, whole 0 0), .iv (whole 0 0, whole 8 0), .ok⟩,
   ⟨1052, .sub (whole 0 0, whole 8 0) (bin 4867778304876401 107, bin 4867778304876401 107), .iv (bin (-4867778304876401) 107, whole 8 0), .ok⟩,
   ⟨1054, .sub (whole 0 0, .pinf) (bin (-1419768672255617) 104, bin (-1419768672255617) 104), .iv (bin 1419768672255617 104, .pinf), .ok⟩,
   ⟨1056, .sub (whole 0 0, .pinf) (whole 0 0, whole 0 0), .iv (whole 0 0, .pinf), .ok⟩,
   ⟨1058, .sub (whole 0 0, .pinf) (bin 5679074689022467 106, bin 5679074689022467 106), .iv (bin (-5679074689022467) 106, .pinf), .ok⟩,
   ⟨1061, .sub (whole (-32) 0, whole (-17) 0) (bin 4421398595017775 47, bin 4421398595017775 47), .iv (bin (-8924998222388271) 47, bin (-6813935897058351) 47), .ok⟩,
   ⟨1063, .sub (bin (-4421398595017775) 47, whole (-17) 0) (bin (-4421398595017775) 47, bin (-4421398595017775) 47), .iv (whole 0 0, bin 2028861292977199 47), .ok⟩,
   ⟨1065, .sub (whole (-32) 0, bin (-4421398595017775) 48) (bin (-4421398595017775) 48, bin (-4421398595017775) 48), .iv (bin (-4585800659723217) 48, whole 0 0), .ok⟩,
   ⟨1067, .sub (bin 5124095576030431 48, bin 5124095576030431 4) (bin (-7) 1, bin (-7) 1), .iv (bin 6109257994517727 48, bin 5124095576030487 4), .ok⟩,
   ⟨1069, .sub (bin 5124095576030431 56, bin 5124095576030431 4) (bin (-7) 1, bin (-7) 1), .iv (bin 4020713667324659 50, bin 5124095576030487 4), .ok⟩,
   ⟨1071, .sub (whole (-255) 0, bin 5124095576030431 52) (bin (-513) 1, bin (-513) 1), .iv (bin 3 1, bin 4532411718736573 44), .ok⟩,
   ⟨1073, .sub (bin (-9007199254740991) 52, bin (-1) 550) (bin (-8195) 1, bin (-8195) 1), .iv (bin 8191 1, bin 8195 1), .ok⟩,
   ⟨1075, .sub (bin 5124095576030431 48, bin 5124095576030431 4) (bin 7 1, bin 7 1), .iv (bin 4138933157543135 48, bin 5124095576030375 4), .ok⟩,
   ⟨1077, .sub (bin 5124095576030431 56, bin 5124095576030431 4) (bin 7 1, bin 7 1), .iv (bin (-3860585680573709) 50, bin 5124095576030375 4), .ok⟩,
   ⟨1079, .sub (whole (-255) 0, bin 5124095576030431 52) (bin 513 1, bin 513 1), .iv (bin (-1023) 1, bin (-4492379722048835) 44), .ok⟩,
   ⟨1081, .sub (bin (-9007199254740991) 52, bin (-1) 550) (bin 8195 1, bin 8195 1), .iv (bin (-8199) 1, bin (-8195) 1), .ok⟩]

theorem mpfi_sub_d_agree : ∀ r ∈ mpfi_sub_d, r.agrees libm = true := by decide +kernel

/-- libieeep1788_set.py, `TestCase_minimal_intersection_test`. -/
def set_inter : List Run :=
  [⟨62, .inter (whole 1 0, whole 3 0) (bin 4728779608739021 51, whole 4 0), .iv (bin 4728779608739021 51, whole 3 0), .ok⟩,
   ⟨64, .inter (whole 1 0, whole 3 0) (whole 3 0, whole 4 0), .iv (whole 3 0, whole 3 0), .ok⟩,
   ⟨66, .inter (whole 1 0, whole 3 0) (.nan, .nan), .iv (.nan, .nan), .got .nan .nan⟩,
   ⟨68, .inter (.ninf, .pinf) (.nan, .nan), .iv (.nan, .nan), .got .nan .nan⟩,
   ⟨70, .inter (whole 1 0, whole 3 0) (.ninf, .pinf), .iv (whole 1 0, whole 3 0), .ok⟩]

theorem set_inter_agree : ∀ r ∈ set_inter, r.agrees libm = true := by decide +kernel

/-- All the runs. -/
def all : List Run :=
  fi_addii ++ fi_divii ++ fi_mulii ++ fi_subii ++ elem_abs ++ elem_add ++
  elem_cos ++ elem_div_1 ++ elem_div_2 ++ elem_div_3 ++ elem_exp ++ elem_log ++
  elem_mul ++ elem_neg ++ elem_sin ++ elem_sqrt ++ elem_sub ++ num_inf ++
  num_mag ++ num_mid ++ num_mig ++ num_rad ++ num_sup ++ num_wid ++
  mpfi_add ++ mpfi_add_d ++ mpfi_d_div ++ mpfi_d_sub ++ mpfi_diam_abs ++ mpfi_div ++
  mpfi_div_d ++ mpfi_mid ++ mpfi_mul ++ mpfi_mul_d ++ mpfi_neg ++ mpfi_sub ++
  mpfi_sub_d ++ set_inter

theorem all_length : all.length = 1262 := by decide +kernel

/-- Both lists agree. -/
theorem agree_append {l l' : List Run} (h : ∀ r ∈ l, r.agrees libm = true) (h' : ∀ r ∈ l', r.agrees libm = true) :
    ∀ r ∈ l ++ l', r.agrees libm = true := List.forall_mem_append.2 ⟨h, h'⟩

/-- The model agrees with every recorded run. -/
theorem all_agree : ∀ r ∈ all, r.agrees libm = true :=
  agree_append (agree_append (agree_append (agree_append (agree_append (agree_append (agree_append (agree_append
  (agree_append (agree_append (agree_append (agree_append (agree_append (agree_append (agree_append
  (agree_append (agree_append (agree_append (agree_append (agree_append (agree_append (agree_append
  (agree_append (agree_append (agree_append (agree_append (agree_append (agree_append (agree_append
  (agree_append (agree_append (agree_append (agree_append (agree_append (agree_append (agree_append
  (agree_append fi_addii_agree fi_divii_agree) fi_mulii_agree) fi_subii_agree) elem_abs_agree) elem_add_agree)
  elem_cos_agree) elem_div_1_agree) elem_div_2_agree) elem_div_3_agree) elem_exp_agree) elem_log_agree)
  elem_mul_agree) elem_neg_agree) elem_sin_agree) elem_sqrt_agree) elem_sub_agree) num_inf_agree)
  num_mag_agree) num_mid_agree) num_mig_agree) num_rad_agree) num_sup_agree) num_wid_agree) mpfi_add_agree)
  mpfi_add_d_agree) mpfi_d_div_agree) mpfi_d_sub_agree) mpfi_diam_abs_agree) mpfi_div_agree) mpfi_div_d_agree)
  mpfi_mid_agree) mpfi_mul_agree) mpfi_mul_d_agree) mpfi_neg_agree) mpfi_sub_agree) mpfi_sub_d_agree) set_inter_agree

end Runs
end IntvalPy
