import Mathlib.Data.Rat.Defs
/-
The tables of `spins/material/material.py`, and of one of its csv files, copied number by number by
`tools/material_tables.py`. The numbers of a table are written in units of a power of ten, so that they are whole.
-/
namespace Verif.Mat

set_option maxRecDepth 10000

/-- `En` of `SiO2` (`material.py` 100-160), in units of `10^-6`. -/
def sio2EnInt : List Nat := [
  10000000000, 9772400000, 9549900000, 9332500000, 9120100000, 8912500000, 8709600000, 8511400000,
  8317600000, 8128300000, 7943300000, 7762500000, 7585800000, 7413100000, 7244400000, 7079500000, 6918300000,
  6760800000, 6606900000, 6456500000, 6309600000, 6166000000, 6025600000, 5888400000, 5754400000, 5623400000,
  5495400000, 5370300000, 5248100000, 5128600000, 5011900000, 4897800000, 4786300000, 4677400000, 4570900000,
  4466800000, 4365200000, 4265800000, 4168700000, 4073800000, 3981100000, 3890500000, 3801900000, 3715400000,
  3630800000, 3548100000, 3467400000, 3388400000, 3311300000, 3235900000, 3162300000, 3090300000, 3020000000,
  2951200000, 2884000000, 2818400000, 2754200000, 2691500000, 2630300000, 2570400000, 2511900000, 2454700000,
  2398800000, 2344200000, 2290900000, 2238700000, 2187800000, 2138000000, 2089300000, 2041700000, 1995300000,
  1949800000, 1905500000, 1862100000, 1819700000, 1778300000, 1737800000, 1698200000, 1659600000, 1621800000,
  1584900000, 1548800000, 1513600000, 1479100000, 1445400000, 1412500000, 1380400000, 1349000000, 1318300000,
  1288200000, 1258900000, 1230300000, 1202300000, 1174900000, 1148200000, 1122000000, 1096500000, 1071500000,
  1047100000, 1023300000, 1000000000, 977200000, 955000000, 933300000, 912000000, 891300000, 871000000,
  851100000, 831800000, 812800000, 794300000, 776300000, 758600000, 741300000, 724400000, 708000000,
  691800000, 676100000, 660700000, 645700000, 631000000, 616600000, 602600000, 588800000, 575400000,
  562300000, 549500000, 537000000, 524800000, 512900000, 501200000, 489800000, 478600000, 467700000,
  457100000, 446700000, 436500000, 426600000, 416900000, 407400000, 398100000, 389000000, 380200000,
  371500000, 363100000, 354800000, 346700000, 338800000, 331100000, 323600000, 316200000, 309000000,
  302000000, 295100000, 288400000, 281800000, 275400000, 269100000, 263000000, 257000000, 251200000,
  245500000, 239900000, 234400000, 229100000, 223900000, 218800000, 213800000, 208900000, 204200000,
  199500000, 195000000, 190600000, 186200000, 182000000, 177800000, 173800000, 169800000, 166000000,
  162200000, 158500000, 154900000, 151400000, 151200000, 147900000, 147600000, 144500000, 144200000,
  141300000, 140900000, 138000000, 137800000, 134900000, 134800000, 131900000, 131800000, 129200000,
  128800000, 126500000, 125900000, 124000000, 123000000, 121600000, 120200000, 119200000, 117500000,
  117000000, 114800000, 112700000, 112200000, 110700000, 109700000, 108800000, 107200000, 106900000,
  105100000, 104700000, 103300000, 102300000, 101600000, 100000000, 99990000, 98400000, 97700000, 96860000,
  95500000, 95370000, 93930000, 93300000, 92530000, 91200000, 91170000, 89840000, 87100000, 85100000,
  83200000, 82660000, 81300000, 79400000, 77600000, 77490000, 75900000, 74100000, 72930000, 72400000,
  70800000, 69200000, 68880000, 67600000, 66100000, 65260000, 64600000, 63100000, 61990000, 61700000,
  60300000, 59040000, 58900000, 57500000, 56360000, 56200000, 55000000, 53910000, 53700000, 52500000,
  51660000, 51300000, 49590000, 47690000, 45920000, 44280000, 42750000, 41330000, 40000000, 38750000,
  37570000, 36470000, 35420000, 34440000, 33510000, 32630000, 31790000, 31000000, 30240000, 29520000,
  28830000, 28180000, 27550000, 26950000, 26380000, 25830000, 25300000, 25000000, 24800000, 24310000,
  24000000, 23840000, 23390000, 23000000, 22960000, 22540000, 22140000, 22000000, 21750000, 21380000,
  21010000, 21000000, 20660000, 20000000, 19500000, 19000000, 18500000, 18000000, 17750000, 17500000,
  17250000, 17000000, 16750000, 16500000, 16250000, 16000000, 15750000, 15500000, 15250000, 15000000,
  14750000, 14500000, 14250000, 14000000, 13750000, 13500000, 13250000, 13000000, 12750000, 12500000,
  12250000, 12000000, 11800000, 11600000, 11400000, 11200000, 11000000, 10900000, 10800000, 10700000,
  10600000, 10500000, 10450000, 10400000, 10350000, 10300000, 10250000, 10200000, 10100000, 10000000,
  9900000, 9800000, 9700000, 9600000, 9500000, 9400000, 9300000, 9200000, 9100000, 9000000, 8900000, 8800000,
  8700000, 8600000, 8500000, 8400000, 8300000, 8200000, 8100000, 8000000, 7800000, 7600000, 7400000, 7200000,
  7000000, 6750000, 6500000, 6250000, 6000000, 5797600, 5781900, 5468000, 5385800, 5213100, 5167400, 4993900,
  4675100, 4594000, 4504000, 4422600, 4284800, 4178400, 4103400, 3754200, 3710500, 3642700, 3577000, 3434000,
  3396700, 3064000, 2844800, 2650300, 2550400, 2437900, 2270500, 2148900, 2141100, 2110200, 2104100, 1925700,
  1889200, 1856600, 1754900, 1455000, 1386300, 1222800, 1144900, 1098500, 910180, 888740, 843720, 810610,
  746630, 732250, 725430, 683840, 629340, 602430, 575980, 533170, 508680, 382210, 379530, 375420, 353540,
  348630, 334490, 322400, 297600, 272800, 248000, 223200, 210800, 198400, 192200, 186000, 183500, 181000,
  178500, 176100, 173600, 171100, 168600, 167400, 166100, 164900, 163700, 162400, 161200, 159900, 158700,
  157500, 156200, 155000, 153700, 152500, 151300, 150000, 148800, 147500, 146300, 145100, 143800, 142600,
  141300, 140100, 138900, 137600, 136400, 135100, 133300, 130200, 127100, 124000, 120900, 117800, 114700,
  111600, 109100, 106600, 105400, 104100, 102900, 101700, 100400, 99190, 97950, 96710, 95470, 94230, 92990,
  89890, 86790, 83690, 80590, 77490, 74390, 71910, 69430, 66950, 65340, 64470, 63230, 61990, 60750, 59510,
  58890, 58270, 57030, 54550, 52070, 49590, 46490, 43390, 40300, 37200, 34100, 31000, 12400, 9919, 7439,
  4959, 2480]

/-- `En` of `SiO2` (`material.py` 100-160). -/
def sio2En : List Rat := sio2EnInt.map fun (i : Nat) => (i : Rat) / 10 ^ 6

/-- `n0` of `SiO2` (`material.py` 161-231), in units of `10^-6`. -/
def sio2N0Int : List Nat := [
  999995, 999994, 999994, 999994, 999993, 999993, 999993, 999992, 999992, 999992, 999991, 999991, 999990,
  999990, 999989, 999989, 999988, 999988, 999987, 999987, 999986, 999985, 999985, 999984, 999983, 999982,
  999981, 999981, 999980, 999979, 999978, 999977, 999976, 999974, 999973, 999972, 999970, 999969, 999968,
  999966, 999965, 999963, 999961, 999959, 999957, 999955, 999953, 999951, 999949, 999946, 999944, 999941,
  999938, 999936, 999933, 999930, 999926, 999923, 999919, 999916, 999912, 999908, 999904, 999900, 999896,
  999891, 999887, 999882, 999878, 999873, 999869, 999865, 999861, 999863, 999858, 999843, 999833, 999823,
  999813, 999802, 999792, 999781, 999770, 999758, 999746, 999734, 999721, 999707, 999693, 999678, 999662,
  999646, 999629, 999611, 999593, 999573, 999553, 999532, 999510, 999487, 999464, 999439, 999413, 999386,
  999358, 999329, 999299, 999268, 999235, 999202, 999167, 999132, 999096, 999059, 999021, 998980, 998950,
  998910, 998870, 998830, 998790, 998760, 998740, 998720, 998710, 998740, 998900, 998870, 998620, 998480,
  998350, 998240, 998120, 998010, 997890, 997780, 997650, 997530, 997400, 997270, 997130, 996980, 996830,
  996670, 996510, 996340, 996160, 995980, 995790, 995590, 995390, 995180, 994960, 994730, 994500, 994260,
  994010, 993750, 993480, 993200, 992910, 992600, 992290, 991970, 991650, 991310, 990970, 990630, 990280,
  989900, 989600, 989200, 988900, 988600, 988400, 988200, 988100, 987900, 987800, 987500, 987200, 986800,
  986300, 987100, 985900, 986500, 985500, 986000, 985300, 985500, 985300, 985300, 985300, 985400, 985800,
  985400, 986800, 985400, 987200, 985400, 987400, 985500, 986500, 985300, 985100, 984900, 984100, 984550,
  984400, 983400, 982200, 982700, 982800, 981900, 986700, 985800, 981300, 983900, 980900, 982300, 982100,
  981300, 980300, 979200, 979400, 976200, 978900, 977800, 974000, 977000, 972100, 976100, 974700, 968300,
  966500, 964600, 963400, 962700, 960800, 958800, 960800, 956800, 954700, 956200, 952500, 950300, 948100,
  950900, 945700, 943400, 945800, 940900, 938400, 941600, 935900, 933300, 938600, 930700, 927900, 932800,
  925200, 922400, 927100, 919600, 916800, 922200, 914000, 916400, 910500, 920700, 917500, 913700, 913000,
  907000, 901000, 895000, 888000, 882000, 877000, 870000, 866000, 858000, 851000, 845000, 839000, 833000,
  827000, 822000, 817000, 813000, 808000, 804000, 733000, 803000, 804000, 753000, 806000, 811000, 774000,
  817000, 822000, 829000, 797000, 833000, 843000, 851000, 827000, 862000, 859000, 879000, 902000, 927000,
  957000, 975000, 999000, 1030000, 1072000, 1124000, 1137000, 1156000, 1172000, 1178000, 1172000, 1167000,
  1168000, 1175000, 1195000, 1225000, 1265000, 1320000, 1363000, 1371000, 1368000, 1372000, 1383000, 1410000,
  1475000, 1554000, 1635000, 1716000, 1766000, 1739000, 1687000, 1587000, 1513000, 1492000, 1567000, 1645000,
  1772000, 1919000, 2048000, 2152000, 2240000, 2332000, 2330000, 2292000, 2243000, 2190000, 2140000, 2092000,
  2047000, 2006000, 1969000, 1935000, 1904000, 1876000, 1850000, 1825000, 1803000, 1783000, 1764000, 1747000,
  1730000, 1716000, 1702000, 1676000, 1653000, 1633000, 1616000, 1600000, 1582000, 1567000, 1554000, 1543000,
  1534290, 1533710, 1522760, 1520090, 1514740, 1513380, 1508410, 1500040, 1498050, 1495920, 1494040, 1490990,
  1488730, 1487190, 1480530, 1479760, 1478580, 1477460, 1475120, 1474530, 1469610, 1466690, 1464290, 1463130,
  1461870, 1460080, 1458850, 1458770, 1458470, 1458410, 1456710, 1456370, 1456080, 1455150, 1452480, 1451850,
  1450250, 1449410, 1448880, 1446210, 1445840, 1444970, 1444270, 1442670, 1442260, 1442050, 1440690, 1438510,
  1437220, 1435760, 1432920, 1430950, 1413140, 1412530, 1411550, 1405680, 1404180, 1399360, 1395000, 1383000,
  1365000, 1342000, 1306000, 1278000, 1239000, 1212000, 1175000, 1158000, 1135000, 1107000, 1084000, 1053000,
  1014000, 970200, 948800, 917500, 889700, 860000, 821300, 771900, 703700, 623200, 545600, 467700, 411300,
  393100, 402000, 432900, 453000, 460000, 473000, 474600, 465600, 456300, 430900, 391500, 356300, 370500,
  584600, 1043000, 1616000, 2250000, 2760000, 2839000, 2694000, 2448000, 2224000, 2038000, 1869000, 1784000,
  1690000, 1652000, 1619000, 1615000, 1658000, 1701000, 12500000, 12660000, 12820000, 12990000, 13160000,
  13330000, 13790000, 14290000, 14810000, 15380000, 16000000, 16670000, 17240000, 17860000, 18520000,
  18970000, 19230000, 19610000, 20000000, 20410000, 20830000, 21050000, 21280000, 21740000, 22730000,
  23810000, 25000000, 26670000, 28570000, 30770000, 33330000, 36360000, 40000000, 100000000, 125000000,
  166700000, 250000000, 500000000]

/-- `n0` of `SiO2` (`material.py` 161-231). -/
def sio2N0 : List Rat := sio2N0Int.map fun (i : Nat) => (i : Rat) / 10 ^ 6

/-- `Ek` of `SiO2` (`material.py` 232-282), in units of `10^-6`. -/
def sio2EkInt : List Nat := [
  10000000000, 9772400000, 9549900000, 9332500000, 9120100000, 8912500000, 8709600000, 8511400000,
  8317600000, 8128300000, 7943300000, 7762500000, 7585800000, 7413100000, 7244400000, 7079500000, 6918300000,
  6760800000, 6606900000, 6456500000, 6309600000, 6166000000, 6025600000, 5888400000, 5754400000, 5623400000,
  5495400000, 5370300000, 5248100000, 5128600000, 5011900000, 4897800000, 4786300000, 4677400000, 4570900000,
  4466800000, 4365200000, 4265800000, 4168700000, 4073800000, 3981100000, 3890500000, 3801900000, 3715400000,
  3630800000, 3548100000, 3467400000, 3388400000, 3311300000, 3235900000, 3162300000, 3090300000, 3020000000,
  2951200000, 2884000000, 2818400000, 2754200000, 2691500000, 2630300000, 2570400000, 2511900000, 2454700000,
  2398800000, 2344200000, 2290900000, 2238700000, 2187800000, 2138000000, 2089300000, 2041700000, 1995300000,
  1949800000, 1905500000, 1862100000, 1819700000, 1778300000, 1737800000, 1698200000, 1659600000, 1621800000,
  1584900000, 1548800000, 1513600000, 1479100000, 1445400000, 1412500000, 1380400000, 1349000000, 1318300000,
  1288200000, 1258900000, 1230300000, 1202300000, 1174900000, 1148200000, 1122000000, 1096500000, 1071500000,
  1047100000, 1023300000, 1000000000, 977200000, 955000000, 933300000, 912000000, 891300000, 871000000,
  851100000, 831800000, 812800000, 794300000, 776300000, 758600000, 741300000, 724400000, 708000000,
  691800000, 676100000, 660700000, 645700000, 631000000, 616600000, 602600000, 588800000, 575400000,
  562300000, 549500000, 537000000, 524800000, 512900000, 501200000, 489800000, 478600000, 467700000,
  457100000, 446700000, 436500000, 426600000, 416900000, 407400000, 398100000, 389000000, 380200000,
  371500000, 363100000, 354800000, 346700000, 338800000, 331100000, 323600000, 316200000, 309000000,
  302000000, 295100000, 288400000, 281800000, 275400000, 269100000, 263000000, 257000000, 251200000,
  245500000, 239900000, 234400000, 229100000, 223900000, 218800000, 213800000, 208900000, 204200000,
  199500000, 195000000, 190600000, 186200000, 182000000, 177800000, 173800000, 169800000, 166000000,
  162200000, 158500000, 154900000, 151400000, 151200000, 147900000, 147600000, 144500000, 144200000,
  141300000, 140900000, 138000000, 137800000, 134900000, 134800000, 131900000, 131800000, 129200000,
  128800000, 126500000, 125900000, 124000000, 123000000, 121600000, 120200000, 119200000, 117500000,
  117000000, 114800000, 112700000, 112200000, 110700000, 109700000, 108800000, 107200000, 106900000,
  105100000, 104700000, 103300000, 102300000, 101600000, 100000000, 99990000, 98400000, 97700000, 96860000,
  95500000, 95370000, 93930000, 93300000, 92530000, 91200000, 91170000, 89840000, 87100000, 85100000,
  83200000, 82660000, 81300000, 79400000, 77600000, 77490000, 75900000, 74100000, 72930000, 72400000,
  70800000, 69200000, 68880000, 67600000, 66100000, 65260000, 64600000, 63100000, 61990000, 61700000,
  60300000, 59040000, 58900000, 57500000, 56360000, 56200000, 55000000, 53910000, 53700000, 52500000,
  51660000, 51300000, 49590000, 47690000, 45920000, 44280000, 42750000, 41330000, 40000000, 38750000,
  37570000, 36470000, 35420000, 34440000, 33510000, 32630000, 31790000, 31000000, 30240000, 29520000,
  28830000, 28180000, 27550000, 26950000, 26380000, 25830000, 25300000, 25000000, 24800000, 24310000,
  24000000, 23840000, 23390000, 23000000, 22960000, 22540000, 22140000, 22000000, 21750000, 21380000,
  21010000, 21000000, 20660000, 20000000, 19500000, 19000000, 18500000, 18000000, 17750000, 17500000,
  17250000, 17000000, 16750000, 16500000, 16250000, 16000000, 15750000, 15500000, 15250000, 15000000,
  14750000, 14500000, 14250000, 14000000, 13750000, 13500000, 13250000, 13000000, 12750000, 12500000,
  12250000, 12000000, 11800000, 11600000, 11400000, 11200000, 11000000, 10900000, 10800000, 10700000,
  10600000, 10500000, 10450000, 10400000, 10350000, 10300000, 10250000, 10200000, 10100000, 10000000,
  9900000, 9800000, 9700000, 9600000, 9500000, 9400000, 9300000, 9200000, 9100000, 9000000, 8900000, 8800000,
  8700000, 8600000, 8500000, 8400000, 8300000, 8200000, 8100000, 8000000, 7800000, 161200, 159900, 158700,
  157500, 156200, 155000, 153700, 152500, 151300, 150000, 148800, 147500, 146300, 145100, 143800, 142600,
  141300, 140100, 138900, 137600, 136400, 135100, 133300, 130200, 127100, 124000, 120900, 117800, 114700,
  111600, 109100, 106600, 105400, 104100, 102900, 101700, 100400, 99190, 97950, 96710, 95470, 94230, 92990,
  89890, 86790, 83690, 80590, 77490, 74390, 71910, 69430, 66950, 65340, 64470, 63230, 61990, 60750, 59510,
  58890, 58270, 57030, 54550, 52070, 49590, 46490, 43390, 40300, 37200, 34100, 31000, 12400, 9919, 7439,
  4959, 2480]

/-- `Ek` of `SiO2` (`material.py` 232-282). -/
def sio2Ek : List Rat := sio2EkInt.map fun (i : Nat) => (i : Rat) / 10 ^ 6

/-- `k0` of `SiO2` (`material.py` 283-342), in units of `10^-10`. -/
def sio2K0Int : List Nat := [
  468, 513, 562, 616, 675, 740, 810, 888, 973, 1070, 1170, 1280, 1400, 1530, 1680, 1840, 2010, 2200, 2410,
  2640, 2890, 3160, 3460, 3790, 4140, 4530, 4960, 5420, 5930, 6480, 7090, 7750, 8470, 9260, 10100, 11100,
  12100, 13200, 14400, 15800, 17200, 18800, 20500, 22400, 24400, 26700, 29100, 31700, 34600, 37700, 41100,
  44800, 48900, 53200, 58000, 63200, 68800, 74900, 81500, 88600, 96400, 105000, 114000, 124000, 135000,
  146000, 159000, 172000, 187000, 203000, 220000, 238000, 258000, 280000, 90400, 98700, 108000, 118000,
  128000, 140000, 153000, 166000, 181000, 198000, 215000, 235000, 255000, 278000, 303000, 330000, 359000,
  391000, 425000, 462000, 503000, 547000, 595000, 648000, 705000, 766000, 829000, 900000, 980000, 1070000,
  1160000, 1250000, 1360000, 1470000, 1600000, 1740000, 1890000, 2060000, 2230000, 2420000, 2630000, 2850000,
  3080000, 3330000, 3620000, 3930000, 4260000, 4610000, 4990000, 5400000, 5850000, 6330000, 6860000, 2040000,
  2210000, 2390000, 2580000, 2790000, 3020000, 3260000, 3520000, 3800000, 4110000, 4440000, 4800000, 5180000,
  5600000, 6050000, 6530000, 7060000, 7640000, 8260000, 8930000, 9650000, 10400000, 11300000, 12200000,
  13200000, 14300000, 15400000, 16600000, 17900000, 19200000, 20700000, 22200000, 23900000, 25700000,
  27700000, 29800000, 32100000, 34600000, 37200000, 40100000, 43200000, 46600000, 50200000, 54100000,
  58300000, 62800000, 67800000, 73000000, 77600000, 82100000, 86100000, 89200000, 91800000, 94800000,
  97900000, 102000000, 73000000, 108000000, 76000000, 115000000, 81000000, 123000000, 89000000, 129000000,
  99000000, 134000000, 107000000, 114000000, 138000000, 111000000, 141000000, 111000000, 143000000, 97000000,
  144000000, 85000000, 141000000, 83000000, 139000000, 96000000, 118000000, 90000000, 138000000, 93000000,
  139000000, 159000000, 142000000, 106000000, 75000000, 145000000, 65000000, 148000000, 68000000, 152000000,
  70000000, 73000000, 109000000, 76000000, 116000000, 76000000, 83000000, 124000000, 87000000, 132000000,
  93000000, 103000000, 149000000, 159000000, 169000000, 199000000, 180000000, 192000000, 204000000,
  226000000, 218000000, 232000000, 244000000, 246000000, 262000000, 279000000, 281000000, 297000000,
  316000000, 335000000, 337000000, 359000000, 374000000, 382000000, 407000000, 437000000, 433000000,
  461000000, 462000000, 491000000, 523000000, 520000000, 556000000, 592000000, 578000000, 631000000,
  650000000, 726000000, 680000000, 750000000, 820000000, 900000000, 920000000, 940000000, 980000000,
  1070000000, 1130000000, 1200000000, 1280000000, 1370000000, 1440000000, 1560000000, 1690000000, 1800000000,
  1900000000, 2020000000, 2180000000, 2330000000, 2500000000, 2700000000, 2820000000, 3250000000, 3000000000,
  3220000000, 3750000000, 3430000000, 3660000000, 4340000000, 3850000000, 4080000000, 4300000000, 4800000000,
  4500000000, 4700000000, 4820000000, 5300000000, 4970000000, 5850000000, 6130000000, 6450000000, 6770000000,
  7120000000, 7310000000, 7500000000, 7630000000, 7680000000, 7650000000, 7550000000, 7370000000, 7170000000,
  7030000000, 6960000000, 6990000000, 7110000000, 7390000000, 7710000000, 7990000000, 8080000000, 7950000000,
  7750000000, 7550000000, 7470000000, 7660000000, 7930000000, 8240000000, 8610000000, 8740000000, 8590000000,
  8100000000, 7180000000, 5690000000, 5650000000, 6180000000, 7250000000, 9140000000, 11100000000,
  11360000000, 11300000000, 10450000000, 9250000000, 8100000000, 7150000000, 4600000000, 3230000000,
  2360000000, 1680000000, 1190000000, 770000000, 561000000, 430000000, 339000000, 271000000, 228000000,
  189000000, 156000000, 132000000, 109000000, 83800000, 55700000, 31700000, 14000000, 4630000, 1220000,
  320000, 47000, 372000000, 474000000, 768000000, 1320000000, 2160000000, 3230000000, 4460000000, 5530000000,
  6350000000, 7040000000, 7710000000, 8400000000, 9030000000, 9780000000, 10700000000, 11700000000,
  13200000000, 15300000000, 18500000000, 22700000000, 25500000000, 26300000000, 22600000000, 16500000000,
  9620000000, 5090000000, 2310000000, 1020000000, 460000000, 506000000, 775000000, 1160000000, 1520000000,
  2040000000, 2670000000, 3230000000, 3410000000, 17530000000, 17890000000, 18110000000, 18100000000,
  17790000000, 17560000000, 16980000000, 16430000000, 15980000000, 15550000000, 15020000000, 14500000000,
  14010000000, 13370000000, 12350000000, 11610000000, 10500000000, 8857000000, 6616000000, 5777000000,
  7517000000, 10020000000, 14840000000, 23080000000, 29360000000, 29120000000, 27390000000, 25370000000,
  23880000000, 22840000000, 22100000000, 21470000000, 21000000000, 19670000000, 19620000000, 19590000000,
  19570000000, 19550000000]

/-- `k0` of `SiO2` (`material.py` 283-342). -/
def sio2K0 : List Rat := sio2K0Int.map fun (i : Nat) => (i : Rat) / 10 ^ 10

/-- `En` of `Si` (`material.py` 358-386), in units of `10^-6`. -/
def siEnInt : List Nat := [
  2000000000, 1952000000, 1905000000, 1860000000, 1815000000, 1772000000, 1730000000, 1688000000, 1648000000,
  1609000000, 1570000000, 1533000000, 1496000000, 1460000000, 1426000000, 1392000000, 1358000000, 1326000000,
  1294000000, 1263000000, 1233000000, 1204000000, 1175000000, 1147000000, 1119000000, 1093000000, 1067000000,
  1041000000, 1016000000, 992000000, 968000000, 945000000, 923000000, 901000000, 879000000, 858000000,
  818000000, 798000000, 779000000, 760000000, 742000000, 725000000, 707000000, 690000000, 674000000,
  658000000, 642000000, 627000000, 612000000, 597000000, 583000000, 569000000, 555000000, 542000000,
  529000000, 516000000, 504000000, 492000000, 480000000, 469000000, 458000000, 447000000, 436000000,
  426000000, 415000000, 406000000, 396000000, 386000000, 377000000, 368000000, 359000000, 351000000,
  342000000, 334000000, 326000000, 318000000, 311000000, 303000000, 296000000, 289000000, 282000000,
  275000000, 269000000, 262000000, 256000000, 250000000, 244000000, 238000000, 232000000, 227000000,
  221000000, 216000000, 211000000, 206000000, 201000000, 196000000, 191000000, 187000000, 182000000,
  178000000, 174000000, 170000000, 166000000, 162000000, 158000000, 154000000, 150000000, 147000000,
  143000000, 140000000, 136000000, 133000000, 130000000, 127000000, 124000000, 121000000, 118000000,
  115000000, 112000000, 110000000, 107000000, 104000000, 102000000, 101600000, 100800000, 100000000,
  99190000, 98400000, 96860000, 95370000, 93930000, 91170000, 88560000, 82660000, 77490000, 72930000,
  68880000, 65260000, 61990000, 59040000, 56360000, 53910000, 51660000, 49590000, 47690000, 45920000,
  44280000, 42750000, 41330000, 40000000, 38750000, 37570000, 36470000, 35420000, 34440000, 33510000,
  32630000, 31790000, 31000000, 30240000, 29520000, 28830000, 28180000, 27550000, 26950000, 26380000,
  25830000, 25300000, 24800000, 24310000, 23840000, 23390000, 22960000, 22540000, 22140000, 21750000,
  21380000, 21010000, 20660000, 20330000, 20000000, 19680000, 19500000, 19370000, 19070000, 19000000,
  18500000, 18000000, 17750000, 17500000, 17250000, 17000000, 16800000, 16700000, 16600000, 16500000,
  16250000, 16000000, 15750000, 15500000, 15250000, 15000000, 14750000, 14500000, 14250000, 14000000,
  13750000, 13500000, 13250000, 13000000, 12750000, 12500000, 12250000, 12000000, 11750000, 11500000,
  11250000, 11000000, 10750000, 10500000, 10250000, 10000000, 9750000, 9500000, 9250000, 9000000, 8750000,
  8500000, 8250000, 8000000, 7750000, 7500000, 7250000, 7000000, 6750000, 6500000, 6250000, 6000000, 5800000,
  5600000, 5500000, 5400000, 5300000, 5200000, 5100000, 5000000, 1107000, 1084000, 1033000, 903700, 885600,
  809300, 774900, 731000, 688800, 619900, 508700, 495900, 456800, 413300, 375300, 362600, 354200, 310000,
  248000, 206600, 177100, 155000, 137800, 124000, 91840, 85500, 82650, 61990, 49590, 40920, 24800, 19840,
  17360, 14880, 13640, 12400, 9919, 7430, 6199, 4959, 3720]

/-- `En` of `Si` (`material.py` 358-386). -/
def siEn : List Rat := siEnInt.map fun (i : Nat) => (i : Rat) / 10 ^ 6

/-- `n0` of `Si` (`material.py` 387-424), in units of `10^-6`. -/
def siN0Int : List Nat := [
  999905, 999913, 999922, 999932, 999911, 999885, 999874, 999863, 999854, 999844, 999834, 999824, 999814,
  999803, 999792, 999781, 999769, 999756, 999743, 999729, 999715, 999700, 999684, 999667, 999649, 999631,
  999612, 999591, 999570, 999548, 999524, 999500, 999474, 999447, 999418, 999388, 999325, 999289, 999253,
  999214, 999174, 999134, 999088, 999041, 998990, 998940, 998890, 998830, 998780, 998710, 998650, 998580,
  998510, 998430, 998360, 998270, 998190, 998100, 998000, 997910, 997810, 997700, 997590, 997480, 997350,
  997230, 997100, 996950, 996820, 996670, 996510, 996360, 996190, 996020, 995850, 995660, 995490, 995280,
  995090, 994890, 994680, 994460, 994270, 994030, 993820, 993610, 993390, 993180, 992960, 992770, 992540,
  992360, 992190, 992060, 991920, 991790, 991690, 991670, 991640, 991640, 991670, 991760, 992350, 992350,
  992870, 993400, 993840, 994150, 994600, 994960, 995490, 995940, 996450, 997050, 997730, 998560, 999580,
  1000800, 1002400, 1003900, 1007000, 1013200, 1024100, 1025000, 1030000, 1032000, 1034000, 1034000, 1034000,
  1030000, 1022000, 1008000, 1000000, 993000, 991000, 988000, 985000, 982000, 978000, 976000, 972000, 968000,
  964000, 960000, 956000, 952000, 947000, 942000, 937000, 930000, 925000, 918000, 913000, 906000, 899000,
  893000, 885000, 877000, 869000, 860000, 853000, 843000, 834000, 824000, 814000, 803000, 792000, 778000,
  766000, 752000, 737000, 722000, 706000, 691000, 675000, 659000, 644000, 627000, 610000, 590000, 568000,
  549000, 542000, 530000, 513000, 514000, 485000, 455000, 440000, 426000, 411000, 397000, 386000, 379000,
  374000, 369000, 357000, 345000, 333000, 323000, 313000, 304000, 296000, 288000, 281000, 275000, 269000,
  265000, 261000, 258000, 256000, 255000, 256000, 257000, 259000, 263000, 267000, 272000, 278000, 286000,
  295000, 306000, 318000, 332000, 348000, 367000, 389000, 414000, 444000, 478000, 517000, 563000, 618000,
  682000, 756000, 847000, 968000, 1110000, 1240000, 1400000, 1510000, 1640000, 1750000, 1780000, 1720000,
  1680000, 3536100, 3529500, 3519300, 3500700, 3487600, 3478400, 3471000, 3464400, 3457800, 3449000, 3443400,
  3442400, 3439300, 3436100, 3433500, 3432700, 3432100, 3429400, 3426100, 3424200, 3423100, 3422400, 3421900,
  3421500, 3420900, 3420800, 3420700, 3420400, 3420100, 3420000, 3419700, 3419500, 3419200, 3419000, 3418800,
  3418500, 3418000, 3417000, 3416500, 3416000, 3415500]

/-- `n0` of `Si` (`material.py` 387-424). -/
def siN0 : List Rat := siN0Int.map fun (i : Nat) => (i : Rat) / 10 ^ 6

/-- `Ek` of `Si` (`material.py` 425-461), in units of `10^-6`. -/
def siEkInt : List Nat := [
  2000000000, 1952000000, 1905000000, 1860000000, 1815000000, 1772000000, 1730000000, 1688000000, 1648000000,
  1609000000, 1570000000, 1533000000, 1496000000, 1460000000, 1426000000, 1392000000, 1358000000, 1326000000,
  1294000000, 1263000000, 1233000000, 1204000000, 1175000000, 1147000000, 1119000000, 1093000000, 1067000000,
  1041000000, 1016000000, 992000000, 968000000, 945000000, 923000000, 901000000, 879000000, 858000000,
  818000000, 798000000, 779000000, 760000000, 742000000, 725000000, 707000000, 690000000, 674000000,
  658000000, 642000000, 627000000, 612000000, 597000000, 583000000, 569000000, 555000000, 542000000,
  529000000, 516000000, 504000000, 492000000, 480000000, 469000000, 458000000, 447000000, 436000000,
  426000000, 415000000, 406000000, 396000000, 386000000, 377000000, 368000000, 359000000, 351000000,
  342000000, 334000000, 326000000, 318000000, 311000000, 303000000, 296000000, 289000000, 282000000,
  275000000, 269000000, 262000000, 256000000, 250000000, 244000000, 238000000, 232000000, 227000000,
  221000000, 216000000, 211000000, 206000000, 201000000, 196000000, 191000000, 187000000, 182000000,
  178000000, 174000000, 170000000, 166000000, 162000000, 158000000, 154000000, 150000000, 147000000,
  143000000, 140000000, 136000000, 133000000, 130000000, 127000000, 124000000, 121000000, 118000000,
  115000000, 112000000, 110000000, 107000000, 104000000, 102000000, 101600000, 100800000, 100000000,
  99190000, 98400000, 96860000, 95370000, 93930000, 91170000, 88560000, 82660000, 77490000, 72930000,
  68880000, 65260000, 61990000, 59040000, 56360000, 53910000, 51660000, 49590000, 47690000, 45920000,
  44280000, 42750000, 41330000, 40000000, 38750000, 37570000, 36470000, 35420000, 34440000, 33510000,
  32630000, 31790000, 31000000, 30240000, 29520000, 28830000, 28180000, 27550000, 26950000, 26380000,
  25830000, 25300000, 24800000, 24310000, 23840000, 23390000, 22960000, 22540000, 22140000, 21750000,
  21380000, 21010000, 20660000, 20330000, 20000000, 19680000, 19500000, 19370000, 19070000, 19000000,
  18500000, 18000000, 17750000, 17500000, 17250000, 17000000, 16800000, 16700000, 16600000, 16500000,
  16250000, 16000000, 15750000, 15500000, 15250000, 15000000, 14750000, 14500000, 14250000, 14000000,
  13750000, 13500000, 13250000, 13000000, 12750000, 12500000, 12250000, 12000000, 11750000, 11500000,
  11250000, 11000000, 10750000, 10500000, 10250000, 10000000, 9750000, 9500000, 9250000, 9000000, 8750000,
  8500000, 8250000, 8000000, 7750000, 7500000, 7250000, 7000000, 6750000, 6500000, 6250000, 6000000, 5800000,
  5600000, 5500000, 5400000, 5300000, 5200000, 5100000, 5000000, 2000000, 1900000, 1800000, 1700000, 1600000,
  1500000, 1400000, 1300000, 1200000, 456800, 326300, 248000, 241800, 235600, 229400, 223200, 217000, 210800,
  204600, 198400, 192200, 186000, 179800, 173600, 167400, 161200, 155000, 148800, 139500, 138900, 137600,
  136400, 133900, 131400, 128900, 126500, 124000, 121500, 120300, 119000, 117800, 116500, 114100, 111600,
  110300, 109100, 107900, 106600, 105400, 104100, 102900, 101700, 100400, 99190, 97950, 96710, 95470, 94230,
  92990, 91750, 90510, 89270, 88030, 86790, 85550, 84310, 83070, 81830, 80590, 79350, 78110, 76870, 75630,
  75130, 74390, 73150, 71910, 70670, 69430, 66950, 64470, 61990, 59510, 57030, 54550, 52070, 49590, 48350,
  47110, 45870, 44630, 42150, 19840, 17360, 14880, 12400, 11160, 9919, 8679, 7430, 6199, 4959]

/-- `Ek` of `Si` (`material.py` 425-461). -/
def siEk : List Rat := siEkInt.map fun (i : Nat) => (i : Rat) / 10 ^ 6

/-- `k0` of `Si` (`material.py` 462-510), in units of `10^-10`. -/
def siK0Int : List Nat := [
  319000, 346000, 376000, 408000, 39300, 43200, 47400, 52000, 57000, 62400, 68500, 74900, 82200, 89900,
  98100, 107000, 117000, 128000, 140000, 153000, 167000, 183000, 200000, 218000, 239000, 260000, 284000,
  310000, 339000, 370000, 404000, 441000, 480000, 524000, 573000, 625000, 742000, 811000, 884000, 966000,
  1050000, 1140000, 1250000, 1360000, 1480000, 1610000, 1760000, 1910000, 2080000, 2270000, 2470000, 2690000,
  2940000, 3190000, 3470000, 3790000, 4110000, 4470000, 4870000, 5270000, 5720000, 6220000, 6770000, 7340000,
  8010000, 8630000, 9390000, 10200000, 11100000, 12000000, 13100000, 14100000, 15300000, 16600000, 18000000,
  19500000, 21000000, 22900000, 24700000, 26700000, 28800000, 31300000, 33600000, 36500000, 39300000,
  42300000, 45700000, 49400000, 53400000, 57000000, 61900000, 66300000, 71200000, 76300000, 81800000,
  87900000, 94600000, 100000000, 107000000, 114000000, 121000000, 128000000, 145000000, 145000000, 152000000,
  157000000, 162000000, 166000000, 172000000, 177000000, 183000000, 188000000, 194000000, 200000000,
  206000000, 212000000, 219000000, 226000000, 233000000, 239000000, 247000000, 256000000, 262000000,
  240000000, 50000000, 15400000, 10000000, 10200000, 10900000, 11300000, 12000000, 13000000, 14300000,
  17800000, 21500000, 25400000, 29700000, 34300000, 39300000, 44300000, 50000000, 55300000, 61000000,
  67000000, 73000000, 78500000, 84000000, 90000000, 95000000, 100000000, 104000000, 100000000, 113000000,
  117000000, 121000000, 124000000, 128000000, 132000000, 135000000, 138000000, 142000000, 147000000,
  152000000, 158000000, 168000000, 178000000, 192000000, 205000000, 223000000, 243000000, 264000000,
  292000000, 325000000, 365000000, 405000000, 455000000, 510000000, 580000000, 650000000, 740000000,
  1027500000, 930000000, 1400000000, 1000000000, 1130000000, 1630000000, 1890000000, 2190000000, 2370000000,
  2550000000, 2750000000, 2960000000, 3140000000, 3230000000, 3330000000, 3420000000, 3670000000, 3940000000,
  4210000000, 4500000000, 4790000000, 5100000000, 5410000000, 5730000000, 6070000000, 6410000000, 6770000000,
  7140000000, 7520000000, 7920000000, 8330000000, 8750000000, 9180000000, 9630000000, 10100000000,
  10600000000, 11100000000, 11600000000, 12100000000, 12600000000, 13200000000, 13800000000, 14500000000,
  15100000000, 15800000000, 16600000000, 17300000000, 18200000000, 19000000000, 20000000000, 21000000000,
  22100000000, 23200000000, 24500000000, 25800000000, 27300000000, 28900000000, 30500000000, 31800000000,
  33300000000, 34000000000, 34400000000, 34200000000, 33600000000, 34200000000, 35800000000, 296000000,
  240000000, 225000000, 197000000, 142000000, 125000000, 77500000, 22600000, 10700000, 25, 130, 1990, 2820,
  2970, 3260, 3940, 4050, 4170, 5640, 8460, 17400, 26600, 245000, 177500, 162000, 265500, 153000, 241000,
  644000, 838000, 846000, 643500, 472000, 375000, 367000, 484000, 676000, 1090000, 1220000, 1240000, 1220000,
  1270000, 1660000, 2020000, 2080000, 2020000, 2010000, 1730000, 1530000, 1440000, 1770000, 2060000, 1970000,
  1770000, 2070000, 2140000, 2270000, 2390000, 2590000, 3120000, 3030000, 2210000, 1570000, 1020000, 1120000,
  1250000, 1240000, 1410000, 1520000, 1640000, 5050000, 9630000, 11100000, 12500000, 7160000, 4180000,
  3650000, 4150000, 3840000, 3400000, 3180000, 2860000, 2220000, 1560000, 1270000, 1060000, 915000, 939000,
  1050000, 1120000, 1080000, 1080000, 1700000, 1900000, 2300000, 2900000, 3500000, 4300000, 5500000, 7200000,
  10000000, 14000000]

/-- `k0` of `Si` (`material.py` 462-510). -/
def siK0 : List Rat := siK0Int.map fun (i : Nat) => (i : Rat) / 10 ^ 10

/-- `eV` of `Si3N4` (`material.py` 515-519), in units of `10^-2`. -/
def sinEVInt : List Nat := [
  2400, 2300, 2200, 2100, 2000, 1900, 1800, 1700, 1600, 1500, 1400, 1300, 1200, 1100, 1050, 1000, 950, 900,
  850, 800, 775, 750, 725, 700, 675, 650, 625, 600, 575, 550, 525, 500, 475, 450, 425, 400, 350, 300, 250,
  200, 150, 100]

/-- `eV` of `Si3N4` (`material.py` 515-519). -/
def sinEV : List Rat := sinEVInt.map fun (i : Nat) => (i : Rat) / 10 ^ 2

/-- `n` of `Si3N4` (`material.py` 520-526), in units of `10^-3`. -/
def sinNInt : List Nat := [
  655, 625, 611, 617, 635, 676, 735, 810, 902, 1001, 1111, 1247, 1417, 1657, 1827, 2000, 2162, 2326, 2492,
  2651, 2711, 2753, 2766, 2752, 2724, 2682, 2620, 2541, 2464, 2393, 2331, 2278, 2234, 2198, 2167, 2141, 2099,
  2066, 2041, 2022, 2008, 1998]

/-- `n` of `Si3N4` (`material.py` 520-526). -/
def sinN : List Rat := sinNInt.map fun (i : Nat) => (i : Rat) / 10 ^ 3

/-- `k` of `Si3N4` (`material.py` 527-532), in units of `10^-5`. -/
def sinKInt : List Nat := [
  42000, 48100, 56000, 64700, 74300, 84100, 93600, 103000, 111000, 118000, 126000, 135000, 143000, 152000,
  153000, 149000, 144000, 132000, 116000, 96200, 86600, 75000, 61200, 49300, 38000, 27300, 17400, 10200,
  5700, 2900, 1100, 490, 120, 23, 0, 0, 0, 0, 0, 0, 0, 0]

/-- `k` of `Si3N4` (`material.py` 527-532). -/
def sinK : List Rat := sinKInt.map fun (i : Nat) => (i : Rat) / 10 ^ 5

/-- `wl` (`spins/material/csv_files/Si_Aspnes.csv` 2-47), in units of `10^-4`. -/
def aspnesWlInt : List Nat := [
  2066, 2101, 2138, 2175, 2214, 2254, 2296, 2339, 2384, 2431, 2480, 2530, 2583, 2638, 2695, 2755, 2818, 2883,
  2952, 3024, 3100, 3179, 3263, 3351, 3444, 3542, 3647, 3757, 3875, 3999, 4133, 4275, 4428, 4592, 4769, 4959,
  5166, 5391, 5636, 5904, 6199, 6525, 6888, 7293, 7749, 8266]

/-- `wl` (`spins/material/csv_files/Si_Aspnes.csv` 2-47). -/
def aspnesWl : List Rat := aspnesWlInt.map fun (i : Nat) => (i : Rat) / 10 ^ 4

/-- `n` (`spins/material/csv_files/Si_Aspnes.csv` 2-47), in units of `10^-3`. -/
def aspnesNInt : List Nat := [
  1010, 1083, 1133, 1186, 1247, 1340, 1471, 1579, 1589, 1571, 1570, 1597, 1658, 1764, 1988, 2452, 3120, 4087,
  4888, 5020, 5010, 5016, 5065, 5156, 5296, 5610, 6522, 6709, 6062, 5570, 5222, 4961, 4753, 4583, 4442, 4320,
  4215, 4123, 4042, 3969, 3906, 3847, 3796, 3752, 3714, 3673]

/-- `n` (`spins/material/csv_files/Si_Aspnes.csv` 2-47). -/
def aspnesN : List Rat := aspnesNInt.map fun (i : Nat) => (i : Rat) / 10 ^ 3

/-- `k` (`spins/material/csv_files/Si_Aspnes.csv` 2-47), in units of `10^-3`. -/
def aspnesKInt : List Nat := [
  2909, 2982, 3045, 3120, 3206, 3302, 3366, 3353, 3354, 3429, 3565, 3749, 3979, 4278, 4678, 5082, 5344, 5395,
  4639, 3979, 3586, 3346, 3182, 3058, 2987, 3014, 2705, 1320, 630, 387, 269, 203, 163, 130, 90, 73, 60, 48,
  32, 30, 22, 16, 13, 10, 8, 5]

/-- `k` (`spins/material/csv_files/Si_Aspnes.csv` 2-47). -/
def aspnesK : List Rat := aspnesKInt.map fun (i : Nat) => (i : Rat) / 10 ^ 3

end Verif.Mat
