import Verif.Lemmas.ExpFix
import Verif.Lemmas.Chord

/-!
# The black body locus: what the kernel computes

The rows of the table of `zsl_clr_conv_uv60_cct` in units of 10⁻⁶ K and 10⁻⁸, the observer in units of 10⁻¹², and for every row the
black body at the 95 wavelengths, in natural numbers. `pairOk` compares the sums with the table and bounds the curvature of the
locus between a row and the next one.
-/

namespace Verif.LT

open EF

/-- The temperatures of the table, in 10⁻⁶ K. -/
def tT : List ℕ := [
  990000000, 1000000000, 1010000000, 1020100000, 1030301000, 1040604010, 1051010050, 1061520151, 1072135352, 1082856706,
  1093685273, 1104622125, 1115668347, 1126825030, 1138093280, 1149474213, 1160968955, 1172578645, 1184304431, 1196147476,
  1208108950, 1220190040, 1232391940, 1244715860, 1257163018, 1269734649, 1282431995, 1295256315, 1308208878, 1321290967,
  1334503877, 1347848915, 1361327404, 1374940679, 1388690085, 1402576986, 1416602756, 1430768784, 1445076471, 1459527236,
  1474122509, 1488863734, 1503752371, 1518789895, 1533977794, 1549317572, 1564810747, 1580458855, 1596263443, 1612226078,
  1628348338, 1644631822, 1661078140, 1677688921, 1694465811, 1711410469, 1728524573, 1745809819, 1763267917, 1780900597,
  1798709603, 1816696699, 1834863666, 1853212302, 1871744425, 1890461869, 1909366488, 1928460153, 1947744755, 1967222202,
  1986894424, 2006763368, 2026831002, 2047099312, 2067570305, 2088246008, 2109128468, 2130219753, 2151521951, 2173037170,
  2194767542, 2216715217, 2238882369, 2261271193, 2283883905, 2306722744, 2329789971, 2353087871, 2376618750, 2400384937,
  2424388787, 2448632675, 2473119001, 2497850191, 2522828693, 2548056980, 2573537550, 2599272926, 2625265655, 2651518311,
  2678033494, 2704813829, 2731861968, 2759180587, 2786772393, 2814640117, 2842786518, 2871214384, 2899926527, 2928925793,
  2958215051, 2987797201, 3017675173, 3047851925, 3078330444, 3109113749, 3140204886, 3171606935, 3203323004, 3235356234,
  3267709797, 3300386895, 3333390764, 3366724671, 3400391918, 3434395837, 3468739795, 3503427193, 3538461465, 3573846080,
  3609584541, 3645680386, 3682137190, 3718958562, 3756148148, 3793709629, 3831646725, 3869963193, 3908662824, 3947749453,
  3987226947, 4027099217, 4067370209, 4108043911, 4149124350, 4190615594, 4232521750, 4274846967, 4317595437, 4360771391,
  4404379105, 4448422896, 4492907125, 4537836196, 4583214558, 4629046704, 4675337171, 4722090543, 4769311448, 4817004562,
  4865174608, 4913826354, 4962964618, 5012594264, 5062720206, 5113347409, 5164480883, 5216125691, 5268286948, 5320969818,
  5374179516, 5427921311, 5482200524, 5537022530, 5592392755, 5648316682, 5704799849, 5761847848, 5819466326, 5877660989,
  5936437599, 5995801975, 6055759995, 6116317595, 6177480771, 6239255579, 6301648135, 6364664616, 6428311262, 6492594375,
  6557520318, 6623095522, 6689326477, 6756219742, 6823781939, 6892019758, 6960939956, 7030549355, 7100854849, 7171863398,
  7243582032, 7316017852, 7389178030, 7463069811, 7537700509, 7613077514, 7689208289, 7766100372, 7843761376, 7922198989,
  8001420979, 8081435189, 8162249541, 8243872036, 8326310757, 8409573864, 8493669603, 8578606299, 8664392362, 8751036286,
  8838546648, 8926932115, 9016201436, 9106363450, 9197427085, 9289401356, 9382295369, 9476118323, 9570879506, 9666588301,
  9763254184, 9860886726, 9959495593, 10059090549, 10159681455, 10261278269, 10363891052, 10467529963, 10572205262, 10677927315,
  10784706588, 10892553654, 11001479190, 11111493982, 11222608922, 11334835011, 11448183361, 11562665195, 11678291847,
  11795074766, 11913025513, 12032155768, 12152477326, 12274002099, 12396742120, 12520709541, 12645916637, 12772375803,
  12900099561, 13029100557, 13159391562, 13290985478, 13423895333, 13558134286, 13693715629, 13830652785, 13968959313,
  14108648906, 14249735395, 14392232749, 14536155077, 14681516628, 14828331794, 14976615112, 15126381263, 15277645076,
  15430421526, 15584725742, 15740572999, 15897978729, 16056958516, 16217528101, 16379703382, 16543500416, 16708935420,
  16876024775, 17044785022, 17215232873, 17387385201, 17561259053, 17736871644, 17914240360, 18093382764, 18274316592,
  18457059757, 18641630355, 18828046659, 19016327125, 19206490396, 19398555300, 19592540853, 19788466262, 19986350925,
  20186214434]

/-- The first coordinates of the table, in 10⁻⁸. -/
def tU : List ℕ := [
  45042258, 44806562, 44573364, 44340355, 44107575, 43875059, 43642845, 43410968, 43179464, 42948368, 42717713, 42487534,
  42257863, 42028732, 41800174, 41572219, 41344897, 41118239, 40892273, 40667028, 40442532, 40218812, 39995895, 39773806,
  39552571, 39332214, 39112759, 38894231, 38676651, 38460041, 38244424, 38029821, 37816251, 37603734, 37392290, 37181937,
  36972693, 36764576, 36557603, 36351789, 36147152, 35943705, 35741464, 35540443, 35340656, 35142115, 34944835, 34748826,
  34554101, 34360671, 34168547, 33977738, 33788256, 33600109, 33413306, 33227857, 33043768, 32861049, 32679705, 32499745,
  32321174, 32143998, 31968225, 31793857, 31620902, 31449363, 31279244, 31110549, 30943283, 30777447, 30613045, 30450080,
  30288553, 30128466, 29969821, 29812618, 29656860, 29502545, 29349675, 29198250, 29048268, 28899730, 28752635, 28606980,
  28462765, 28319988, 28178646, 28038738, 27900261, 27763212, 27627588, 27493385, 27360600, 27229230, 27099269, 26970714,
  26843560, 26717802, 26593436, 26470457, 26348858, 26228634, 26109779, 25992289, 25876155, 25761372, 25647934, 25535833,
  25425063, 25315617, 25207487, 25100666, 24995147, 24890922, 24787982, 24686321, 24585929, 24486800, 24388923, 24292292,
  24196897, 24102729, 24009781, 23918042, 23827504, 23738158, 23649995, 23563005, 23477179, 23392507, 23308981, 23226590,
  23145325, 23065176, 22986134, 22908188, 22831329, 22755546, 22680831, 22607172, 22534561, 22462986, 22392438, 22322907,
  22254382, 22186854, 22120312, 22054746, 21990146, 21926502, 21863804, 21802040, 21741202, 21681280, 21622261, 21564138,
  21506899, 21450535, 21395035, 21340389, 21286588, 21233620, 21181477, 21130147, 21079622, 21029892, 20980945, 20932773,
  20885366, 20838714, 20792807, 20747636, 20703191, 20659462, 20616440, 20574115, 20532479, 20491521, 20451232, 20411603,
  20372626, 20334290, 20296587, 20259507, 20223043, 20187184, 20151923, 20117250, 20083156, 20049635, 20016675, 19984270,
  19952411, 19921090, 19890298, 19860028, 19830271, 19801019, 19772265, 19744000, 19716217, 19688909, 19662067, 19635685,
  19609754, 19584268, 19559220, 19534601, 19510406, 19486627, 19463257, 19440289, 19417718, 19395535, 19373735, 19352312,
  19331258, 19310567, 19290234, 19270251, 19250614, 19231316, 19212352, 19193714, 19175399, 19157400, 19139711, 19122327,
  19105243, 19088454, 19071954, 19055738, 19039801, 19024139, 19008745, 18993616, 18978747, 18964133, 18949769, 18935650,
  18921774, 18908134, 18894728, 18881549, 18868596, 18855862, 18843345, 18831040, 18818944, 18807052, 18795362, 18783868,
  18772569, 18761459, 18750536, 18739797, 18729237, 18718854, 18708644, 18698604, 18688731, 18679022, 18669474, 18660084,
  18650850, 18641767, 18632834, 18624047, 18615405, 18606904, 18598542, 18590316, 18582223, 18574262, 18566430, 18558725,
  18551143, 18543684, 18536344, 18529122, 18522016, 18515022, 18508140, 18501368, 18494702, 18488142, 18481685, 18475330,
  18469075, 18462918, 18456856, 18450890, 18445015, 18439233, 18433539, 18427934, 18422414, 18416980, 18411629, 18406359,
  18401170, 18396060, 18391028, 18386072]

/-- The second coordinates of the table, in 10⁻⁸. -/
def tV : List ℕ := [
  35439942, 35460468, 35480622, 35500602, 35520396, 35539995, 35559388, 35578566, 35597519, 35616235, 35634706, 35652920,
  35670867, 35688537, 35705919, 35723003, 35739778, 35756233, 35772358, 35788143, 35803576, 35818647, 35833346, 35847662,
  35861583, 35875101, 35888203, 35900881, 35913122, 35924918, 35936257, 35947130, 35957526, 35967435, 35976848, 35985754,
  35994144, 36002008, 36009337, 36016121, 36022352, 36028020, 36033117, 36037634, 36041562, 36044894, 36047620, 36049735,
  36051229, 36052096, 36052328, 36051918, 36050861, 36049149, 36046777, 36043738, 36040027, 36035639, 36030570, 36024813,
  36018365, 36011222, 36003381, 35994837, 35985588, 35975630, 35964963, 35953583, 35941488, 35928678, 35915151, 35900906,
  35885943, 35870263, 35853865, 35836750, 35818918, 35800373, 35781114, 35761144, 35740465, 35719081, 35696993, 35674206,
  35650723, 35626548, 35601685, 35576139, 35549915, 35523019, 35495455, 35467229, 35438348, 35408818, 35378646, 35347839,
  35316403, 35284347, 35251678, 35218403, 35184532, 35150073, 35115034, 35079423, 35043251, 35006527, 34969259, 34931457,
  34893132, 34854293, 34814950, 34775114, 34734794, 34694002, 34652748, 34611043, 34568897, 34526322, 34483329, 34439929,
  34396133, 34351952, 34307398, 34262482, 34217215, 34171610, 34125677, 34079429, 34032876, 33986030, 33938903, 33891506,
  33843851, 33795950, 33747814, 33699454, 33650882, 33602110, 33553148, 33504009, 33454702, 33405241, 33355635, 33305896,
  33256035, 33206062, 33155989, 33105826, 33055584, 33005274, 32954906, 32904489, 32854036, 32803555, 32753057, 32702551,
  32652048, 32601557, 32551087, 32500648, 32450249, 32399900, 32349609, 32299385, 32249236, 32199172, 32149201, 32099330,
  32049569, 31999925, 31950405, 31901018, 31851771, 31802671, 31753726, 31704942, 31656326, 31607885, 31559626, 31511555,
  31463678, 31416000, 31368529, 31321269, 31274227, 31227407, 31180815, 31134456, 31088335, 31042456, 30996824, 30951444,
  30906320, 30861455, 30816854, 30772521, 30728459, 30684672, 30641163, 30597935, 30554991, 30512334, 30469967, 30427892,
  30386113, 30344630, 30303447, 30262565, 30221986, 30181712, 30141745, 30102086, 30062736, 30023697, 29984970, 29946555,
  29908454, 29870668, 29833196, 29796040, 29759200, 29722677, 29686470, 29650580, 29615006, 29579749, 29544808, 29510184,
  29475875, 29441882, 29408203, 29374839, 29341788, 29309050, 29276624, 29244509, 29212704, 29181207, 29150019, 29119137,
  29088560, 29058288, 29028318, 28998650, 28969281, 28940211, 28911437, 28882959, 28854774, 28826881, 28799277, 28771962,
  28744934, 28718190, 28691728, 28665548, 28639646, 28614022, 28588672, 28563595, 28538789, 28514251, 28489980, 28465974,
  28442231, 28418747, 28395522, 28372553, 28349838, 28327375, 28305161, 28283194, 28261473, 28239994, 28218756, 28197757,
  28176994, 28156465, 28136168, 28116100, 28096260, 28076646, 28057254, 28038083, 28019131, 28000395, 27981873, 27963564,
  27945464, 27927573, 27909886, 27892404, 27875122, 27858040, 27841154, 27824464, 27807967, 27791660, 27775542, 27759611,
  27743864, 27728300, 27712917, 27697712]

/-- Four times x̄, in 10⁻¹². -/
def oX : List ℕ := [
  519600000, 928400000, 1659600000, 2966400000, 5472000000, 8944000000, 16972000000, 30600000000, 57240000000, 92760000000,
  174040000000, 310520000000, 537520000000, 859080000000, 1135600000000, 1314000000000, 1393120000000, 1392240000000,
  1344800000000, 1274800000000, 1163200000000, 1004400000000, 781440000000, 568400000000, 382560000000, 231800000000,
  128040000000, 58800000000, 19600000000, 9600000000, 37200000000, 116400000000, 253080000000, 438400000000, 662000000000,
  903000000000, 1161600000000, 1438800000000, 1733800000000, 2048200000000, 2378000000000, 2713600000000, 3048400000000,
  3370000000000, 3665200000000, 3914400000000, 4105200000000, 4226800000000, 4248800000000, 4182400000000, 4010400000000,
  3753600000000, 3418000000000, 3005600000000, 2569600000000, 2167600000000, 1791600000000, 1443200000000, 1134000000000,
  874800000000, 659600000000, 484800000000, 349600000000, 254400000000, 187080000000, 131600000000, 90800000000, 63360000000,
  45436000000, 32444000000, 23160000000, 16436000000, 11596000000, 8196000000, 5760000000, 4000000000, 2760000000, 1904000000,
  1328000000, 940000000, 664000000, 708000000, 332000000, 236000000, 168000000, 117400000, 82680000, 58240000, 41000000,
  28880000, 20360000, 14320000, 10080000, 7120000, 5000000]

/-- Six times ȳ, in 10⁻¹². -/
def oY : List ℕ := [
  23520000, 41820000, 74340000, 132120000, 240000000, 360000000, 720000000, 1302000000, 2400000000, 3840000000, 7260000000,
  13080000000, 24000000000, 43800000000, 69600000000, 101040000000, 138000000000, 178800000000, 228000000000, 288000000000,
  360000000000, 443400000000, 545880000000, 675600000000, 834120000000, 1015800000000, 1248120000000, 1551600000000,
  1938000000000, 2443800000000, 3018000000000, 3649200000000, 4260000000000, 4759200000000, 5172000000000, 5489100000000,
  5724000000000, 5881800000000, 5969700000000, 6000000000000, 5970000000000, 5871600000000, 5712000000000, 5492400000000,
  5220000000000, 4897800000000, 4542000000000, 4169400000000, 3786000000000, 3400800000000, 3018000000000, 2647200000000,
  2286000000000, 1926000000000, 1590000000000, 1302000000000, 1050000000000, 828000000000, 642000000000, 489600000000,
  366000000000, 267480000000, 192000000000, 139200000000, 102000000000, 71520000000, 49260000000, 34338000000, 24612000000,
  17574000000, 12546000000, 8904000000, 6282000000, 4440000000, 3120000000, 2166000000, 1494000000, 1031400000, 720000000,
  508800000, 360000000, 254400000, 180000000, 126000000, 90000000, 63600000, 44820000, 31560000, 22200000, 15660000, 11040000,
  7740000, 5460000, 3840000, 2700000]

/-- x̄ + 15 ȳ + 3 z̄, in 10⁻¹². -/
def oD : List ℕ := [
  2007000000, 3594650000, 6438750000, 11529900000, 3903000000, 34786000000, 66193000000, 119535000000, 223860000000,
  363390000000, 683860000000, 1224230000000, 2131180000000, 3441420000000, 4614700000000, 5449980000000, 5934460000000,
  6142860000000, 6222530000000, 6271000000000, 6198400000000, 5943900000000, 5422980000000, 4956800000000, 4619790000000,
  4446050000000, 4547850000000, 4953600000000, 5665900000000, 6748800000000, 8028900000000, 9487200000000, 10948020000000,
  12179350000000, 13221980000000, 14038020000000, 14661300000000, 15104400000000, 15383950000000, 15529300000000, 15531200000000,
  15365650000000, 15048400000000, 14578900000000, 13971250000000, 13227300000000, 12384600000000, 11483200000000, 10529600000000,
  9549400000000, 8548620000000, 7557120000000, 6570070000000, 5566700000000, 4618900000000, 3797800000000, 3073500000000,
  2431100000000, 1888500000000, 1442700000000, 1079900000000, 789900000000, 567400000000, 411600000000, 301770000000,
  211700000000, 145850000000, 101685000000, 72889000000, 52046000000, 37155000000, 26369000000, 18604000000, 13149000000,
  9240000000, 6415000000, 4425000000, 3054500000, 2132000000, 1507000000, 1066000000, 813000000, 533000000, 374000000, 267000000,
  188350000, 132720000, 93460000, 65750000, 46370000, 32690000, 22930000, 16170000, 11380000, 8000000]

/-- They are the table of the model. -/
theorem tab_eq : ohno2014Table = (tT.zip (tU.zip tV)).map fun r => ((r.1 : ℚ) / 1000000, (r.2.1 : ℚ) / 100000000, (r.2.2 : ℚ) / 100000000) := by
  decide +kernel

/-- They are the observer of the model. -/
theorem obs_eq : obs2Deg.map (fun r => (4 * r.1, 6 * r.2.1, r.1 + 15 * r.2.1 + 3 * r.2.2)) =
    (oX.zip (oY.zip oD)).map fun r => ((r.1 : ℚ) / 1000000000000, (r.2.1 : ℚ) / 1000000000000, (r.2.2 : ℚ) / 1000000000000) := by
  decide +kernel

/-- The second radiation constant, in units of 10⁻³ times nm times 10⁻⁶ K. -/
def c2 : ℕ := 14387863142323088

/-- exp (-x) at 830 nm. -/
def edge (τ : ℕ) : ℕ := expN (one * c2 / (1000 * 830 * τ * 4096))

/-- The black body at `n` nanometres, in units that depend on the temperature. -/
def val (τ er n : ℕ) : ℕ :=
  frc (expN (one * c2 * (830 - n) / (1000 * n * 830 * τ * 4096))) fun f => f * (10000000000000000 * one) / (n ^ 5 * (one - f * er / one))

/-- The values at `m` wavelengths from `n` on. -/
def vals {α : Type} (τ er : ℕ) : ℕ → ℕ → (List ℕ → α) → α
  | 0, _, k => k []
  | m + 1, n, k => frc (val τ er n) fun v => vals τ er m (n + 5) fun vs => k (v :: vs)

/-- The sum of the products. -/
def dot : List ℕ → List ℕ → ℕ
  | a :: as, b :: bs => a * b + dot as bs
  | _, _ => 0

/-- How far `p1 D0 / (p0 D1)` is from 1, in 10⁻⁹, rounded up. -/
def dev (D0 D1 p0 p1 : ℕ) : ℕ := ((p1 * D0 - p0 * D1) + (p0 * D1 - p1 * D0)) * 1000000000 / (p0 * D1) + 2

/-- The weighted sum of the squares of the deviations. -/
def devs (D0 D1 : ℕ) : List ℕ → List ℕ → List ℕ → ℕ → (ℕ → Bool) → Bool
  | d :: ds, p :: ps, q :: qs, acc, k =>
    frc (dev D0 D1 p q) fun b => Nat.ble b 199999999 && frc (acc + d * p * (b * b)) fun acc => devs D0 D1 ds ps qs acc k
  | _, _, _, acc, k => k acc

/-- The chromaticity `num / den` is within 10⁻⁸ of the tabulated one. -/
def coordOk (num den c : ℕ) : Bool := Nat.ble (num * 100000000) (c * den + den) && Nat.ble (c * den) (num * 100000000 + den)

/-- The relation of the curvature to the distance of the rows. -/
def flat (acc D0 u0 v0 u1 v1 : ℕ) : Bool :=
  frc (acc / (1000000 * D0)) fun s =>
  frc ((s + s / 1000000000 + 2) / 5 + 15032000) fun E =>
  Nat.ble E 10000000000 &&
  frc (1301 * E / 1000 + 60001) fun e =>
    Nat.ble (e * e) (1690000 * ((u0 - u1) * (u0 - u1) + ((v0 - v1) + (v1 - v0)) * ((v0 - v1) + (v1 - v0))))

/-- Everything about the rows `i` and `i + 1`. -/
def pairOk (i : ℕ) : Bool :=
  frc (tT.getD i 0) fun τ0 => frc (tT.getD (i + 1) 0) fun τ1 =>
  frc (tU.getD i 0) fun u0 => frc (tU.getD (i + 1) 0) fun u1 =>
  frc (tV.getD i 0) fun v0 => frc (tV.getD (i + 1) 0) fun v1 =>
  frc (edge τ0) fun e0 => frc (edge τ1) fun e1 =>
  vals τ0 e0 95 360 fun P0 => vals τ1 e1 95 360 fun P1 =>
  frc (dot oD P0) fun D0 => frc (dot oD P1) fun D1 =>
    coordOk (dot oX P0) D0 u0 && coordOk (dot oY P0) D0 v0 && coordOk (dot oX P1) D1 u1 && coordOk (dot oY P1) D1 v1 &&
    devs D0 D1 oD P0 P1 0 fun acc => flat acc D0 u0 v0 u1 v1

end Verif.LT
