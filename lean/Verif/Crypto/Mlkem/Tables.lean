/-! The two constant tables of `/repo/crypto/mlkem/src/ml_kem_poly.c`, copied number by number. -/
namespace Verif.Crypto.Mlkem

/-- `CONST_ZETA_POWER_1`, ml_kem_poly.c:33-50. -/
def zetaPower1 : List Int :=
  [1290168, -2064267850, -966335387, -51606696, -886345008, 812805467, -1847519726, 1094061961, 1370157786,
   -1819136043, 249002310, 1028263423, -700560901, -89021551, 734105255, -2042335004, 381889553, -1137927652,
   1727534158, 1904287092, -365117376, 72249375, -1404992305, 1719793153, 1839778722, -1593356746, 690239563,
   -576704830, -1207596692, -580575332, -1748176835, 1059227441, 372858381, 427045412, -98052722,
   -2029433330, 1544330386, -1322421591, -1357256111, -1643673275, 838608815, -1744306333, -1052776603,
   815385801, -598637676, 42575525, 1703020977, -1824296712, -1303069080, 1851390229, 1041165097, 583155668,
   1855260731, -594767174, 1979116802, -1195985185, -879894171, -918599193, 1910737929, 836028480,
   -1103093132, -282546662, 1583035408, 1174052340, 21932846, -732815086, 752167598, -877313836, 2112004045,
   932791035, -1343064270, 1419184148, 1817845876, -860541660, -61928035, 300609006, 975366560, -1513366367,
   -405112565, -359956706, -2097812202, 2130066389, -696690399, -1986857805, -1912028096, 1228239371,
   1884934581, -828287474, 1211467195, -1317260921, -1150829326, -1214047529, 945692709, -1279846067,
   345764865, 826997308, 2043625172, -1330162596, -1666896289, -140628247, 483812778, -1006330577,
   -1598517416, 2122325384, 1371447954, 411563403, -717333077, 976656727, -1586905909, 723783916,
   -1113414471, -948273043, -677337888, 1408862808, 519937465, 1323711759, 1474661346, -1521107372,
   -714752743, 1143088323, -2073299022, 1563682897, -1877193576, 1327582262, -1572714068, -508325958,
   1141798155, -1515946702]

/-- `CONST_ZETA_POWER_2`, ml_kem_poly.c:52-69. -/
def zetaPower2 : List Int :=
  [21932846, -21932845, -732815086, 732815087, 752167598, -752167597, -877313836, 877313837, 2112004045,
   -2112004044, 932791035, -932791034, -1343064270, 1343064271, 1419184148, -1419184147, 1817845876,
   -1817845875, -860541660, 860541661, -61928035, 61928036, 300609006, -300609005, 975366560, -975366559,
   -1513366367, 1513366368, -405112565, 405112566, -359956706, 359956707, -2097812202, 2097812203,
   2130066389, -2130066388, -696690399, 696690400, -1986857805, 1986857806, -1912028096, 1912028097,
   1228239371, -1228239370, 1884934581, -1884934580, -828287474, 828287475, 1211467195, -1211467194,
   -1317260921, 1317260922, -1150829326, 1150829327, -1214047529, 1214047530, 945692709, -945692708,
   -1279846067, 1279846068, 345764865, -345764864, 826997308, -826997307, 2043625172, -2043625171,
   -1330162596, 1330162597, -1666896289, 1666896290, -140628247, 140628248, 483812778, -483812777,
   -1006330577, 1006330578, -1598517416, 1598517417, 2122325384, -2122325383, 1371447954, -1371447953,
   411563403, -411563402, -717333077, 717333078, 976656727, -976656726, -1586905909, 1586905910, 723783916,
   -723783915, -1113414471, 1113414472, -948273043, 948273044, -677337888, 677337889, 1408862808,
   -1408862807, 519937465, -519937464, 1323711759, -1323711758, 1474661346, -1474661345, -1521107372,
   1521107373, -714752743, 714752744, 1143088323, -1143088322, -2073299022, 2073299023, 1563682897,
   -1563682896, -1877193576, 1877193577, 1327582262, -1327582261, -1572714068, 1572714069, -508325958,
   508325959, 1141798155, -1141798154, -1515946702, 1515946703]

end Verif.Crypto.Mlkem
