import Mathlib.Data.Rat.Defs

/-!
# The static tables of src/colorimetry

Generated by checks/colortables.py from the C sources; the literals are the decimal literals of the sources.
-/

namespace Verif

/-- include/zsl/colorimetry.h:51-63 `enum zsl_clr_obs`; zero is the 2 degree observer. -/
inductive Obs
  | deg2
  | deg10
deriving DecidableEq, Repr

/-- include/zsl/colorimetry.h:68-120 `enum zsl_clr_illum`; zero is illuminant A. -/
inductive Illum
  | A
  | B
  | C
  | D50
  | D55
  | D65
  | E
  | ICC
deriving DecidableEq, Repr

/-- src/colorimetry/conv.c:22-85 `zsl_clr_conv_xyy_cct_ohno_2011_data`. -/
def ohno2011Data : List (List ℚ) :=
  [[(-1.77348e-1), 1.115559, (-1.5008606), 9.750013e-1, (-3.307009e-1), 5.6061400e-2, (-3.7146000e-3)],
   [5.308409e-4, 2.1595434e-3, (-4.3534788e-3), 3.6196568e-3, (-1.589747e-3), 3.5700160e-4, (-3.2325500e-5)],
   [(-8.58308927e-1), 1.964980251, (-1.873907584), 9.53570888e-1, (-2.73172022e-1), 4.17781315e-2, (-2.6653835e-3)],
   [(-2.3275027e2), 1.49284136e3, (-2.7966888e3), 2.51170136e3, (-1.1785121e3), 2.7183365e2, (-2.3524950e1)],
   [(-5.926850606e8), 1.34488160614e9, (-1.27141290956e9), 6.40976356945e8, (-1.81749963507e8), 2.7482732935e7, (-1.731364909e6)],
   [(-2.3758158e6), 3.89561742e6, (-2.65299138e6), 9.60532935e5, (-1.9500061e5), 2.10468274e4, (-9.4353083e2)],
   [2.8151771e6, (-4.11436958e6), 2.48526954e6, (-7.93406005e5), 1.4101538e5, (-1.321007e4), 5.0857956e2]]

/-- src/colorimetry/conv.c:94-103 `zsl_clr_conv_xyy_cct_ohno_2014_data`. -/
def ohno2014Data : List ℚ :=
  [(-0.471106), 1.925865, (-2.4243787), 1.5317403, (-0.5179722), 0.0893944, (-0.00616793)]

/-- src/colorimetry/conv.c:113-418 `zsl_clr_conv_ct_uv_ohno_2014_data`: colour temperature, u, v. -/
def ohno2014Table : List (ℚ × ℚ × ℚ) :=
  [(990.000000, 0.45042258, 0.35439942), (1000.000000, 0.44806562, 0.35460468), (1010.000000, 0.44573364, 0.35480622),
   (1020.100000, 0.44340355, 0.35500602), (1030.301000, 0.44107575, 0.35520396), (1040.604010, 0.43875059, 0.35539995),
   (1051.010050, 0.43642845, 0.35559388), (1061.520151, 0.43410968, 0.35578566), (1072.135352, 0.43179464, 0.35597519),
   (1082.856706, 0.42948368, 0.35616235), (1093.685273, 0.42717713, 0.35634706), (1104.622125, 0.42487534, 0.35652920),
   (1115.668347, 0.42257863, 0.35670867), (1126.825030, 0.42028732, 0.35688537), (1138.093280, 0.41800174, 0.35705919),
   (1149.474213, 0.41572219, 0.35723003), (1160.968955, 0.41344897, 0.35739778), (1172.578645, 0.41118239, 0.35756233),
   (1184.304431, 0.40892273, 0.35772358), (1196.147476, 0.40667028, 0.35788143), (1208.108950, 0.40442532, 0.35803576),
   (1220.190040, 0.40218812, 0.35818647), (1232.391940, 0.39995895, 0.35833346), (1244.715860, 0.39773806, 0.35847662),
   (1257.163018, 0.39552571, 0.35861583), (1269.734649, 0.39332214, 0.35875101), (1282.431995, 0.39112759, 0.35888203),
   (1295.256315, 0.38894231, 0.35900881), (1308.208878, 0.38676651, 0.35913122), (1321.290967, 0.38460041, 0.35924918),
   (1334.503877, 0.38244424, 0.35936257), (1347.848915, 0.38029821, 0.35947130), (1361.327404, 0.37816251, 0.35957526),
   (1374.940679, 0.37603734, 0.35967435), (1388.690085, 0.37392290, 0.35976848), (1402.576986, 0.37181937, 0.35985754),
   (1416.602756, 0.36972693, 0.35994144), (1430.768784, 0.36764576, 0.36002008), (1445.076471, 0.36557603, 0.36009337),
   (1459.527236, 0.36351789, 0.36016121), (1474.122509, 0.36147152, 0.36022352), (1488.863734, 0.35943705, 0.36028020),
   (1503.752371, 0.35741464, 0.36033117), (1518.789895, 0.35540443, 0.36037634), (1533.977794, 0.35340656, 0.36041562),
   (1549.317572, 0.35142115, 0.36044894), (1564.810747, 0.34944835, 0.36047620), (1580.458855, 0.34748826, 0.36049735),
   (1596.263443, 0.34554101, 0.36051229), (1612.226078, 0.34360671, 0.36052096), (1628.348338, 0.34168547, 0.36052328),
   (1644.631822, 0.33977738, 0.36051918), (1661.078140, 0.33788256, 0.36050861), (1677.688921, 0.33600109, 0.36049149),
   (1694.465811, 0.33413306, 0.36046777), (1711.410469, 0.33227857, 0.36043738), (1728.524573, 0.33043768, 0.36040027),
   (1745.809819, 0.32861049, 0.36035639), (1763.267917, 0.32679705, 0.36030570), (1780.900597, 0.32499745, 0.36024813),
   (1798.709603, 0.32321174, 0.36018365), (1816.696699, 0.32143998, 0.36011222), (1834.863666, 0.31968225, 0.36003381),
   (1853.212302, 0.31793857, 0.35994837), (1871.744425, 0.31620902, 0.35985588), (1890.461869, 0.31449363, 0.35975630),
   (1909.366488, 0.31279244, 0.35964963), (1928.460153, 0.31110549, 0.35953583), (1947.744755, 0.30943283, 0.35941488),
   (1967.222202, 0.30777447, 0.35928678), (1986.894424, 0.30613045, 0.35915151), (2006.763368, 0.30450080, 0.35900906),
   (2026.831002, 0.30288553, 0.35885943), (2047.099312, 0.30128466, 0.35870263), (2067.570305, 0.29969821, 0.35853865),
   (2088.246008, 0.29812618, 0.35836750), (2109.128468, 0.29656860, 0.35818918), (2130.219753, 0.29502545, 0.35800373),
   (2151.521951, 0.29349675, 0.35781114), (2173.037170, 0.29198250, 0.35761144), (2194.767542, 0.29048268, 0.35740465),
   (2216.715217, 0.28899730, 0.35719081), (2238.882369, 0.28752635, 0.35696993), (2261.271193, 0.28606980, 0.35674206),
   (2283.883905, 0.28462765, 0.35650723), (2306.722744, 0.28319988, 0.35626548), (2329.789971, 0.28178646, 0.35601685),
   (2353.087871, 0.28038738, 0.35576139), (2376.618750, 0.27900261, 0.35549915), (2400.384937, 0.27763212, 0.35523019),
   (2424.388787, 0.27627588, 0.35495455), (2448.632675, 0.27493385, 0.35467229), (2473.119001, 0.27360600, 0.35438348),
   (2497.850191, 0.27229230, 0.35408818), (2522.828693, 0.27099269, 0.35378646), (2548.056980, 0.26970714, 0.35347839),
   (2573.537550, 0.26843560, 0.35316403), (2599.272926, 0.26717802, 0.35284347), (2625.265655, 0.26593436, 0.35251678),
   (2651.518311, 0.26470457, 0.35218403), (2678.033494, 0.26348858, 0.35184532), (2704.813829, 0.26228634, 0.35150073),
   (2731.861968, 0.26109779, 0.35115034), (2759.180587, 0.25992289, 0.35079423), (2786.772393, 0.25876155, 0.35043251),
   (2814.640117, 0.25761372, 0.35006527), (2842.786518, 0.25647934, 0.34969259), (2871.214384, 0.25535833, 0.34931457),
   (2899.926527, 0.25425063, 0.34893132), (2928.925793, 0.25315617, 0.34854293), (2958.215051, 0.25207487, 0.34814950),
   (2987.797201, 0.25100666, 0.34775114), (3017.675173, 0.24995147, 0.34734794), (3047.851925, 0.24890922, 0.34694002),
   (3078.330444, 0.24787982, 0.34652748), (3109.113749, 0.24686321, 0.34611043), (3140.204886, 0.24585929, 0.34568897),
   (3171.606935, 0.24486800, 0.34526322), (3203.323004, 0.24388923, 0.34483329), (3235.356234, 0.24292292, 0.34439929),
   (3267.709797, 0.24196897, 0.34396133), (3300.386895, 0.24102729, 0.34351952), (3333.390764, 0.24009781, 0.34307398),
   (3366.724671, 0.23918042, 0.34262482), (3400.391918, 0.23827504, 0.34217215), (3434.395837, 0.23738158, 0.34171610),
   (3468.739795, 0.23649995, 0.34125677), (3503.427193, 0.23563005, 0.34079429), (3538.461465, 0.23477179, 0.34032876),
   (3573.846080, 0.23392507, 0.33986030), (3609.584541, 0.23308981, 0.33938903), (3645.680386, 0.23226590, 0.33891506),
   (3682.137190, 0.23145325, 0.33843851), (3718.958562, 0.23065176, 0.33795950), (3756.148148, 0.22986134, 0.33747814),
   (3793.709629, 0.22908188, 0.33699454), (3831.646725, 0.22831329, 0.33650882), (3869.963193, 0.22755546, 0.33602110),
   (3908.662824, 0.22680831, 0.33553148), (3947.749453, 0.22607172, 0.33504009), (3987.226947, 0.22534561, 0.33454702),
   (4027.099217, 0.22462986, 0.33405241), (4067.370209, 0.22392438, 0.33355635), (4108.043911, 0.22322907, 0.33305896),
   (4149.124350, 0.22254382, 0.33256035), (4190.615594, 0.22186854, 0.33206062), (4232.521750, 0.22120312, 0.33155989),
   (4274.846967, 0.22054746, 0.33105826), (4317.595437, 0.21990146, 0.33055584), (4360.771391, 0.21926502, 0.33005274),
   (4404.379105, 0.21863804, 0.32954906), (4448.422896, 0.21802040, 0.32904489), (4492.907125, 0.21741202, 0.32854036),
   (4537.836196, 0.21681280, 0.32803555), (4583.214558, 0.21622261, 0.32753057), (4629.046704, 0.21564138, 0.32702551),
   (4675.337171, 0.21506899, 0.32652048), (4722.090543, 0.21450535, 0.32601557), (4769.311448, 0.21395035, 0.32551087),
   (4817.004562, 0.21340389, 0.32500648), (4865.174608, 0.21286588, 0.32450249), (4913.826354, 0.21233620, 0.32399900),
   (4962.964618, 0.21181477, 0.32349609), (5012.594264, 0.21130147, 0.32299385), (5062.720206, 0.21079622, 0.32249236),
   (5113.347409, 0.21029892, 0.32199172), (5164.480883, 0.20980945, 0.32149201), (5216.125691, 0.20932773, 0.32099330),
   (5268.286948, 0.20885366, 0.32049569), (5320.969818, 0.20838714, 0.31999925), (5374.179516, 0.20792807, 0.31950405),
   (5427.921311, 0.20747636, 0.31901018), (5482.200524, 0.20703191, 0.31851771), (5537.022530, 0.20659462, 0.31802671),
   (5592.392755, 0.20616440, 0.31753726), (5648.316682, 0.20574115, 0.31704942), (5704.799849, 0.20532479, 0.31656326),
   (5761.847848, 0.20491521, 0.31607885), (5819.466326, 0.20451232, 0.31559626), (5877.660989, 0.20411603, 0.31511555),
   (5936.437599, 0.20372626, 0.31463678), (5995.801975, 0.20334290, 0.31416000), (6055.759995, 0.20296587, 0.31368529),
   (6116.317595, 0.20259507, 0.31321269), (6177.480771, 0.20223043, 0.31274227), (6239.255579, 0.20187184, 0.31227407),
   (6301.648135, 0.20151923, 0.31180815), (6364.664616, 0.20117250, 0.31134456), (6428.311262, 0.20083156, 0.31088335),
   (6492.594375, 0.20049635, 0.31042456), (6557.520318, 0.20016675, 0.30996824), (6623.095522, 0.19984270, 0.30951444),
   (6689.326477, 0.19952411, 0.30906320), (6756.219742, 0.19921090, 0.30861455), (6823.781939, 0.19890298, 0.30816854),
   (6892.019758, 0.19860028, 0.30772521), (6960.939956, 0.19830271, 0.30728459), (7030.549355, 0.19801019, 0.30684672),
   (7100.854849, 0.19772265, 0.30641163), (7171.863398, 0.19744000, 0.30597935), (7243.582032, 0.19716217, 0.30554991),
   (7316.017852, 0.19688909, 0.30512334), (7389.178030, 0.19662067, 0.30469967), (7463.069811, 0.19635685, 0.30427892),
   (7537.700509, 0.19609754, 0.30386113), (7613.077514, 0.19584268, 0.30344630), (7689.208289, 0.19559220, 0.30303447),
   (7766.100372, 0.19534601, 0.30262565), (7843.761376, 0.19510406, 0.30221986), (7922.198989, 0.19486627, 0.30181712),
   (8001.420979, 0.19463257, 0.30141745), (8081.435189, 0.19440289, 0.30102086), (8162.249541, 0.19417718, 0.30062736),
   (8243.872036, 0.19395535, 0.30023697), (8326.310757, 0.19373735, 0.29984970), (8409.573864, 0.19352312, 0.29946555),
   (8493.669603, 0.19331258, 0.29908454), (8578.606299, 0.19310567, 0.29870668), (8664.392362, 0.19290234, 0.29833196),
   (8751.036286, 0.19270251, 0.29796040), (8838.546648, 0.19250614, 0.29759200), (8926.932115, 0.19231316, 0.29722677),
   (9016.201436, 0.19212352, 0.29686470), (9106.363450, 0.19193714, 0.29650580), (9197.427085, 0.19175399, 0.29615006),
   (9289.401356, 0.19157400, 0.29579749), (9382.295369, 0.19139711, 0.29544808), (9476.118323, 0.19122327, 0.29510184),
   (9570.879506, 0.19105243, 0.29475875), (9666.588301, 0.19088454, 0.29441882), (9763.254184, 0.19071954, 0.29408203),
   (9860.886726, 0.19055738, 0.29374839), (9959.495593, 0.19039801, 0.29341788), (10059.090549, 0.19024139, 0.29309050),
   (10159.681455, 0.19008745, 0.29276624), (10261.278269, 0.18993616, 0.29244509), (10363.891052, 0.18978747, 0.29212704),
   (10467.529963, 0.18964133, 0.29181207), (10572.205262, 0.18949769, 0.29150019), (10677.927315, 0.18935650, 0.29119137),
   (10784.706588, 0.18921774, 0.29088560), (10892.553654, 0.18908134, 0.29058288), (11001.479190, 0.18894728, 0.29028318),
   (11111.493982, 0.18881549, 0.28998650), (11222.608922, 0.18868596, 0.28969281), (11334.835011, 0.18855862, 0.28940211),
   (11448.183361, 0.18843345, 0.28911437), (11562.665195, 0.18831040, 0.28882959), (11678.291847, 0.18818944, 0.28854774),
   (11795.074766, 0.18807052, 0.28826881), (11913.025513, 0.18795362, 0.28799277), (12032.155768, 0.18783868, 0.28771962),
   (12152.477326, 0.18772569, 0.28744934), (12274.002099, 0.18761459, 0.28718190), (12396.742120, 0.18750536, 0.28691728),
   (12520.709541, 0.18739797, 0.28665548), (12645.916637, 0.18729237, 0.28639646), (12772.375803, 0.18718854, 0.28614022),
   (12900.099561, 0.18708644, 0.28588672), (13029.100557, 0.18698604, 0.28563595), (13159.391562, 0.18688731, 0.28538789),
   (13290.985478, 0.18679022, 0.28514251), (13423.895333, 0.18669474, 0.28489980), (13558.134286, 0.18660084, 0.28465974),
   (13693.715629, 0.18650850, 0.28442231), (13830.652785, 0.18641767, 0.28418747), (13968.959313, 0.18632834, 0.28395522),
   (14108.648906, 0.18624047, 0.28372553), (14249.735395, 0.18615405, 0.28349838), (14392.232749, 0.18606904, 0.28327375),
   (14536.155077, 0.18598542, 0.28305161), (14681.516628, 0.18590316, 0.28283194), (14828.331794, 0.18582223, 0.28261473),
   (14976.615112, 0.18574262, 0.28239994), (15126.381263, 0.18566430, 0.28218756), (15277.645076, 0.18558725, 0.28197757),
   (15430.421526, 0.18551143, 0.28176994), (15584.725742, 0.18543684, 0.28156465), (15740.572999, 0.18536344, 0.28136168),
   (15897.978729, 0.18529122, 0.28116100), (16056.958516, 0.18522016, 0.28096260), (16217.528101, 0.18515022, 0.28076646),
   (16379.703382, 0.18508140, 0.28057254), (16543.500416, 0.18501368, 0.28038083), (16708.935420, 0.18494702, 0.28019131),
   (16876.024775, 0.18488142, 0.28000395), (17044.785022, 0.18481685, 0.27981873), (17215.232873, 0.18475330, 0.27963564),
   (17387.385201, 0.18469075, 0.27945464), (17561.259053, 0.18462918, 0.27927573), (17736.871644, 0.18456856, 0.27909886),
   (17914.240360, 0.18450890, 0.27892404), (18093.382764, 0.18445015, 0.27875122), (18274.316592, 0.18439233, 0.27858040),
   (18457.059757, 0.18433539, 0.27841154), (18641.630355, 0.18427934, 0.27824464), (18828.046659, 0.18422414, 0.27807967),
   (19016.327125, 0.18416980, 0.27791660), (19206.490396, 0.18411629, 0.27775542), (19398.555300, 0.18406359, 0.27759611),
   (19592.540853, 0.18401170, 0.27743864), (19788.466262, 0.18396060, 0.27728300), (19986.350925, 0.18391028, 0.27712917),
   (20186.214434, 0.18386072, 0.27697712)]

/-- src/colorimetry/observers.c:24-124 `zsl_clr_obs_2_deg_data`: 360 to 830 nm in steps of 5 nm. -/
def obs2Deg : List (ℚ × ℚ × ℚ) :=
  [(1.2990000e-4, 3.9200000e-6, 6.0610000e-4), (2.3210000e-4, 6.9700000e-6, 1.0860000e-3),
   (4.1490000e-4, 1.2390000e-5, 1.9460000e-3), (7.4160000e-4, 2.2020000e-5, 3.4860000e-3),
   (1.3680000e-3, 4.0000000e-5, 6.4500000e-4), (2.2360000e-3, 6.0000000e-5, 1.0550000e-2),
   (4.2430000e-3, 1.2000000e-4, 2.0050000e-2), (7.6500000e-3, 2.1700000e-4, 3.6210000e-2),
   (1.4310000e-2, 4.0000000e-4, 6.7850000e-2), (2.3190000e-2, 6.4000000e-4, 1.1020000e-1),
   (4.3510000e-2, 1.2100000e-3, 2.0740000e-1), (7.7630000e-2, 2.1800000e-3, 3.7130000e-1),
   (1.3438000e-1, 4.0000000e-3, 6.4560000e-1), (2.1477000e-1, 7.3000000e-3, 1.0390500),
   (2.8390000e-1, 1.1600000e-2, 1.3856000), (3.2850000e-1, 1.6840000e-2, 1.6229600), (3.4828000e-1, 2.3000000e-2, 1.7470600),
   (3.4806000e-1, 2.9800000e-2, 1.7826000), (3.3620000e-1, 3.8000000e-2, 1.7721100), (3.1870000e-1, 4.8000000e-2, 1.7441000),
   (2.9080000e-1, 6.0000000e-2, 1.6692000), (2.5110000e-1, 7.3900000e-2, 1.5281000), (1.9536000e-1, 9.0980000e-2, 1.2876400),
   (1.4210000e-1, 1.1260000e-1, 1.0419000), (9.5640000e-2, 1.3902000e-1, 8.1295000e-1),
   (5.7950000e-2, 1.6930000e-1, 6.1620000e-1), (3.2010000e-2, 2.0802000e-1, 4.6518000e-1),
   (1.4700000e-2, 2.5860000e-1, 3.5330000e-1), (4.9000000e-3, 3.2300000e-1, 2.7200000e-1),
   (2.4000000e-3, 4.0730000e-1, 2.1230000e-1), (9.3000000e-3, 5.0300000e-1, 1.5820000e-1),
   (2.9100000e-2, 6.0820000e-1, 1.1170000e-1), (6.3270000e-2, 7.1000000e-1, 7.8250000e-2),
   (1.0960000e-1, 7.9320000e-1, 5.7250000e-2), (1.6550000e-1, 8.6200000e-1, 4.2160000e-2),
   (2.2575000e-1, 9.1485000e-1, 2.9840000e-2), (2.9040000e-1, 9.5400000e-1, 2.0300000e-2),
   (3.5970000e-1, 9.8030000e-1, 1.3400000e-2), (4.3345000e-1, 9.9495000e-1, 8.7500000e-3),
   (5.1205000e-1, 1.0000000, 5.7500000e-3), (5.9450000e-1, 9.9500000e-1, 3.9000000e-3),
   (6.7840000e-1, 9.7860000e-1, 2.7500000e-3), (7.6210000e-1, 9.5200000e-1, 2.1000000e-3),
   (8.4250000e-1, 9.1540000e-1, 1.8000000e-3), (9.1630000e-1, 8.7000000e-1, 1.6500000e-3),
   (9.7860000e-1, 8.1630000e-1, 1.4000000e-3), (1.0263000, 7.5700000e-1, 1.1000000e-3),
   (1.0567000, 6.9490000e-1, 1.0000000e-3), (1.0622000, 6.3100000e-1, 8.0000000e-4), (1.0456000, 5.6680000e-1, 6.0000000e-4),
   (1.0026000, 5.0300000e-1, 3.4000000e-4), (9.3840000e-1, 4.4120000e-1, 2.4000000e-4),
   (8.5450000e-1, 3.8100000e-1, 1.9000000e-4), (7.5140000e-1, 3.2100000e-1, 1.0000000e-4),
   (6.4240000e-1, 2.6500000e-1, 5.0000000e-4), (5.4190000e-1, 2.1700000e-1, 3.0000000e-4),
   (4.4790000e-1, 1.7500000e-1, 2.0000000e-4), (3.6080000e-1, 1.3800000e-1, 1.0000000e-4),
   (2.8350000e-1, 1.0700000e-1, 0.0000000), (2.1870000e-1, 8.1600000e-2, 0.0000000), (1.6490000e-1, 6.1000000e-2, 0.0000000),
   (1.2120000e-1, 4.4580000e-2, 0.0000000), (8.7400000e-2, 3.2000000e-2, 0.0000000), (6.3600000e-2, 2.3200000e-2, 0.0000000),
   (4.6770000e-2, 1.7000000e-2, 0.0000000), (3.2900000e-2, 1.1920000e-2, 0.0000000), (2.2700000e-2, 8.2100000e-3, 0.0000000),
   (1.5840000e-2, 5.7230000e-3, 0.0000000), (1.1359000e-2, 4.1020000e-3, 0.0000000), (8.1110000e-3, 2.9290000e-3, 0.0000000),
   (5.7900000e-3, 2.0910000e-3, 0.0000000), (4.1090000e-3, 1.4840000e-3, 0.0000000), (2.8990000e-3, 1.0470000e-3, 0.0000000),
   (2.0490000e-3, 7.4000000e-4, 0.0000000), (1.4400000e-3, 5.2000000e-4, 0.0000000), (1.0000000e-3, 3.6100000e-4, 0.0000000),
   (6.9000000e-4, 2.4900000e-4, 0.0000000), (4.7600000e-4, 1.7190000e-4, 0.0000000), (3.3200000e-4, 1.2000000e-4, 0.0000000),
   (2.3500000e-4, 8.4800000e-5, 0.0000000), (1.6600000e-4, 6.0000000e-5, 0.0000000), (1.7700000e-4, 4.2400000e-5, 0.0000000),
   (8.3000000e-5, 3.0000000e-5, 0.0000000), (5.9000000e-5, 2.1000000e-5, 0.0000000), (4.2000000e-5, 1.5000000e-5, 0.0000000),
   (2.9350000e-5, 1.0600000e-5, 0.0000000), (2.0670000e-5, 7.4700000e-6, 0.0000000), (1.4560000e-5, 5.2600000e-6, 0.0000000),
   (1.0250000e-5, 3.7000000e-6, 0.0000000), (7.2200000e-6, 2.6100000e-6, 0.0000000), (5.0900000e-6, 1.8400000e-6, 0.0000000),
   (3.5800000e-6, 1.2900000e-6, 0.0000000), (2.5200000e-6, 9.1000000e-7, 0.0000000), (1.7800000e-6, 6.4000000e-7, 0.0000000),
   (1.2500000e-6, 4.5000000e-7, 0.0000000)]

/-- src/colorimetry/observers.c:130-230 `zsl_clr_obs_10_deg_data`: 360 to 830 nm in steps of 5 nm. -/
def obs10Deg : List (ℚ × ℚ × ℚ) :=
  [(0.000000122200, 0.000000013398, 0.000000535027), (0.000000919270, 0.000000100650, 0.000004028300),
   (0.000005958600, 0.000000651100, 0.000026143700), (0.000033266000, 0.000003625000, 0.000146220000),
   (0.000159952000, 0.000017364000, 0.000704776000), (0.000662440000, 0.000071560000, 0.002927800000),
   (0.002361600000, 0.000253400000, 0.010482200000), (0.007242300000, 0.000768500000, 0.032344000000),
   (0.019109700000, 0.002004400000, 0.086010900000), (0.043400000000, 0.004509000000, 0.197120000000),
   (0.084736000000, 0.008756000000, 0.389366000000), (0.140638000000, 0.014456000000, 0.656760000000),
   (0.204492000000, 0.021391000000, 0.972542000000), (0.264737000000, 0.029497000000, 1.282500000000),
   (0.314679000000, 0.038676000000, 1.553480000000), (0.357719000000, 0.049602000000, 1.798500000000),
   (0.383734000000, 0.062077000000, 1.967280000000), (0.386726000000, 0.074704000000, 2.027300000000),
   (0.370702000000, 0.089456000000, 1.994800000000), (0.342957000000, 0.106256000000, 1.900700000000),
   (0.302273000000, 0.128201000000, 1.745370000000), (0.254085000000, 0.152761000000, 1.554900000000),
   (0.195618000000, 0.185190000000, 1.317560000000), (0.132349000000, 0.219940000000, 1.030200000000),
   (0.080507000000, 0.253589000000, 0.772125000000), (0.041072000000, 0.297665000000, 0.570060000000),
   (0.016172000000, 0.339133000000, 0.415254000000), (0.005132000000, 0.395379000000, 0.302356000000),
   (0.003816000000, 0.460777000000, 0.218502000000), (0.015444000000, 0.531360000000, 0.159249000000),
   (0.037465000000, 0.606741000000, 0.112044000000), (0.071358000000, 0.685660000000, 0.082248000000),
   (0.117749000000, 0.761757000000, 0.060709000000), (0.172953000000, 0.823330000000, 0.043050000000),
   (0.236491000000, 0.875211000000, 0.030451000000), (0.304213000000, 0.923810000000, 0.020584000000),
   (0.376772000000, 0.961988000000, 0.013676000000), (0.451584000000, 0.982200000000, 0.007918000000),
   (0.529826000000, 0.991761000000, 0.003988000000), (0.616053000000, 0.999110000000, 0.001091000000),
   (0.705224000000, 0.997340000000, 0.000000000000), (0.793832000000, 0.982380000000, 0.000000000000),
   (0.878655000000, 0.955552000000, 0.000000000000), (0.951162000000, 0.915175000000, 0.000000000000),
   (1.014160000000, 0.868934000000, 0.000000000000), (1.074300000000, 0.825623000000, 0.000000000000),
   (1.118520000000, 0.777405000000, 0.000000000000), (1.134300000000, 0.720353000000, 0.000000000000),
   (1.123990000000, 0.658341000000, 0.000000000000), (1.089100000000, 0.593878000000, 0.000000000000),
   (1.030480000000, 0.527963000000, 0.000000000000), (0.950740000000, 0.461834000000, 0.000000000000),
   (0.856297000000, 0.398057000000, 0.000000000000), (0.754930000000, 0.339554000000, 0.000000000000),
   (0.647467000000, 0.283493000000, 0.000000000000), (0.535110000000, 0.228254000000, 0.000000000000),
   (0.431567000000, 0.179828000000, 0.000000000000), (0.343690000000, 0.140211000000, 0.000000000000),
   (0.268329000000, 0.107633000000, 0.000000000000), (0.204300000000, 0.081187000000, 0.000000000000),
   (0.152568000000, 0.060281000000, 0.000000000000), (0.112210000000, 0.044096000000, 0.000000000000),
   (0.081260600000, 0.031800400000, 0.000000000000), (0.057930000000, 0.022601700000, 0.000000000000),
   (0.040850800000, 0.015905100000, 0.000000000000), (0.028623000000, 0.011130300000, 0.000000000000),
   (0.019941300000, 0.007748800000, 0.000000000000), (0.013842000000, 0.005375100000, 0.000000000000),
   (0.009576880000, 0.003717740000, 0.000000000000), (0.006605200000, 0.002564560000, 0.000000000000),
   (0.004552630000, 0.001768470000, 0.000000000000), (0.003144700000, 0.001222390000, 0.000000000000),
   (0.002174960000, 0.000846190000, 0.000000000000), (0.001505700000, 0.000586440000, 0.000000000000),
   (0.001044760000, 0.000407410000, 0.000000000000), (0.000727450000, 0.000284041000, 0.000000000000),
   (0.000508258000, 0.000198730000, 0.000000000000), (0.000356380000, 0.000139550000, 0.000000000000),
   (0.000250969000, 0.000098428000, 0.000000000000), (0.000177730000, 0.000069819000, 0.000000000000),
   (0.000126390000, 0.000049737000, 0.000000000000), (0.000090151000, 0.000035540500, 0.000000000000),
   (0.000064525800, 0.000025486000, 0.000000000000), (0.000046339000, 0.000018338400, 0.000000000000),
   (0.000033411700, 0.000013249000, 0.000000000000), (0.000024209000, 0.000009619600, 0.000000000000),
   (0.000017611500, 0.000007012800, 0.000000000000), (0.000012855000, 0.000005129800, 0.000000000000),
   (0.000009413630, 0.000003764730, 0.000000000000), (0.000006913000, 0.000002770810, 0.000000000000),
   (0.000005093470, 0.000002046130, 0.000000000000), (0.000003767100, 0.000001516770, 0.000000000000),
   (0.000002795310, 0.000001128090, 0.000000000000), (0.000002082000, 0.000000842160, 0.000000000000),
   (0.000001553140, 0.000000629700, 0.000000000000)]

/-- src/colorimetry/lumeff.c:13-99 `zsl_clr_conv_lef_cie88_photopic_5nm`. -/
def lefPhotopic : List (Nat × ℚ) :=
  [(380, 0.00020000), (385, 0.00039600), (390, 0.00080000), (395, 0.00155000), (400, 0.00280000), (405, 0.00466000),
   (410, 0.00740000), (415, 0.01180000), (420, 0.01750000), (425, 0.02270000), (430, 0.02730000), (435, 0.03260000),
   (440, 0.03790000), (445, 0.04240000), (450, 0.04680000), (455, 0.05210000), (460, 0.06000000), (465, 0.07390000),
   (470, 0.09100000), (475, 0.11300000), (480, 0.13900000), (485, 0.16900000), (490, 0.20800000), (495, 0.25900000),
   (500, 0.32300000), (505, 0.40730000), (510, 0.50300000), (515, 0.60820000), (520, 0.71000000), (525, 0.79320000),
   (530, 0.86200000), (535, 0.91485000), (540, 0.95400000), (545, 0.98030000), (550, 0.99495000), (555, 1.00000000),
   (560, 0.99500000), (565, 0.97860000), (570, 0.95200000), (575, 0.91540000), (580, 0.87000000), (585, 0.81630000),
   (590, 0.75700000), (595, 0.69490000), (600, 0.63100000), (605, 0.56680000), (610, 0.50300000), (615, 0.44120000),
   (620, 0.38100000), (625, 0.32000000), (630, 0.26500000), (635, 0.21700000), (640, 0.17500000), (645, 0.13820000),
   (650, 0.10700000), (655, 0.08160000), (660, 0.06100000), (665, 0.04460000), (670, 0.03200000), (675, 0.02320000),
   (680, 0.01700000), (685, 0.01190000), (690, 0.00821000), (695, 0.00572000), (700, 0.00410000), (705, 0.00293000),
   (710, 0.00209000), (715, 0.00148000), (720, 0.00105000), (725, 0.00074000), (730, 0.00052000), (735, 0.00036100),
   (740, 0.00024900), (745, 0.00017200), (750, 0.00012000), (755, 0.00008480), (760, 0.00006000), (765, 0.00004240),
   (770, 0.00003000), (775, 0.00002120), (780, 0.00001500)]

/-- src/colorimetry/lumeff.c:105-191 `zsl_clr_conv_lef_cie51_scotopic_5nm`. -/
def lefScotopic : List (Nat × ℚ) :=
  [(380, 5.89e-1), (385, 1.108), (390, 2.209), (395, 4.53), (400, 9.29), (405, 1.852e1), (410, 3.484e1), (415, 6.04e1),
   (420, 9.66e1), (425, 1.436e2), (430, 1.998e2), (435, 2.625e2), (440, 3.281e2), (445, 3.931e2), (450, 4.55e2), (455, 5.13e2),
   (460, 5.67e2), (465, 6.2e2), (470, 6.76e2), (475, 7.34e2), (480, 7.93e2), (485, 8.51e2), (490, 9.04e2), (495, 9.49e2),
   (500, 9.82e2), (505, 9.98e2), (510, 9.97e2), (515, 9.75e2), (520, 9.35e2), (525, 8.8e2), (530, 8.11e2), (535, 7.33e2),
   (540, 6.5e2), (545, 5.64e2), (550, 4.81e2), (555, 4.02e2), (560, 3.288e2), (565, 2.639e2), (570, 2.076e2), (575, 1.602e2),
   (580, 1.212e2), (585, 8.99e1), (590, 6.55e1), (595, 4.69e1), (600, 3.315e1), (605, 2.312e1), (610, 1.593e1), (615, 1.088e1),
   (620, 7.37), (625, 4.97), (630, 3.335), (635, 2.235), (640, 1.497), (645, 1.005), (650, 6.77e-1), (655, 4.59e-1),
   (660, 3.129e-1), (665, 2.146e-1), (670, 1.48e-1), (675, 1.026e-1), (680, 7.15e-2), (685, 5.01e-2), (690, 3.533e-2),
   (695, 2.501e-2), (700, 1.78e-2), (705, 1.273e-2), (710, 9.14e-3), (715, 6.6e-3), (720, 4.78e-3), (725, 3.482e-3),
   (730, 2.546e-3), (735, 1.87e-3), (740, 1.379e-3), (745, 1.022e-3), (750, 7.6e-4), (755, 5.67e-4), (760, 4.25e-4),
   (765, 3.196e-4), (770, 2.413e-4), (775, 1.829e-4), (780, 1.39e-4)]

/-- src/colorimetry/illuminants.c:14-86 `zsl_clr_illum_list`: illuminant, observer, X, Y, Z (the display names are left out). -/
def illumTable : List (Illum × Obs × ℚ × ℚ × ℚ) :=
  [(.A, .deg2, 1.0985, 1.00000, 0.3558), (.B, .deg2, 0.99093, 1.00000, 0.85313), (.C, .deg2, 0.9807, 1.00000, 1.1822),
   (.D50, .deg2, 0.96422, 1.00000, 0.82521), (.D55, .deg2, 0.9568, 1.00000, 0.9214), (.D65, .deg2, 0.95047, 1.00000, 1.08883),
   (.E, .deg2, 1.00000, 1.00000, 1.00000), (.ICC, .deg2, 0.9642, 1.00000, 0.8249)]

/-- src/colorimetry/rgbccms.c:13-137 `zsl_clr_rgb_ccm_list`: rows, columns, row-major entries. -/
def ccmTable : List (Nat × Nat × List ℚ) :=
  [(3, 3, [3.2404542, (-1.5371385), (-0.4985314), (-0.9692660), 1.8760108, 0.0415560, 0.0556434, (-0.2040259), 1.0572252]),
   (3, 3, [3.1338561, (-1.6168667), (-0.4906146), (-0.9787684), 1.9161415, 0.0334540, 0.0719453, (-0.2289914), 1.4052427]),
   (3, 3, [2.0413690, (-0.5649464), (-0.3446944), (-0.9692660), 1.8760108, 0.0415560, 0.0134474, (-0.1183897), 1.0154096]),
   (3, 3, [1.84664243, (-0.52594723), (-0.21052964), (-0.44417115), 1.25949363, 0.14940599, 0.04086348, 0.01564397, 0.86837846]),
   (3, 3, [1.91008143, (-0.53247794), (-0.28822201), (-0.98463135), 1.99910001, (-0.02830719), 0.05830945, (-0.11838584), 0.89761208]),
   (3, 3, [3.06338864, (-1.39340271), (-0.47582802), (-0.96922425), 1.87592998, 0.04155423, 0.06787259, (-0.2288382), 1.06927151]),
   (3, 3, [3.24100326, (-1.53739899), (-0.49861587), (-0.96922426), 1.87592999, 0.04155422, 0.05563942, (-0.2040112), 1.05714897]),
   (3, 3, [1.71666343, (-0.35567332), (-0.25336809), (-0.66667384), 1.61645574, 0.0157683, 0.01764248, (-0.04277698), 0.94224328]),
   (3, 3, [1.04981102, 0.00000000, (-9.74845410e-5), (-4.95903023e-1), 1.37331305, 9.82400365e-2, 0.00000000, 0.00000000, 9.91252022e-1]),
   (3, 3, [1.64102338, (-0.32480329), (-0.2364247), (-0.66366286), 1.61533159, 0.01675635, 0.01172189, (-0.00828444), 0.98839486]),
   (3, 3, [2.72539403, (-1.01800301), (-0.4401632), (-0.79516803), 1.68973205, 0.02264719, 0.04124189, (-0.08763902), 1.10092938]),
   (3, 3, [1.99040349, (-0.56139586), (-0.22966194), (-0.45849279), 1.262346, 0.15487549, 0.01563207, (-0.00440904), 1.03772867]),
   (3, 3, [2.37067401, (-0.9000403), (-0.47063371), (-0.51388479), 1.42530348, 0.0885813, 0.00529816, (-0.0146949), 1.00939674])]

/-- include/zsl/colorimetry.h:169-208 `enum zsl_clr_rgb_ccm`: the enumerators in order. -/
def ccmNames : List String :=
  ["SRGB_D65", "SRGB_D50", "ADOBERGB98", "SONY_SGAMUT3_CINE", "NTSC", "PAL_SECAM", "BT_709", "BT_2020", "ACES_P0", "ACES_P1",
   "DCI_P3", "DCI_P3_PLUS", "CIE_RGB"]

end Verif
