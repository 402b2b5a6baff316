/-! Generated by tools/crcpows.py: the columns of the matrix of 2^i steps of the CRC-32 register without input, i = 0..31.
Nothing is assumed about these numbers: they are checked in Proof/CrcPeriod. -/
namespace Tiles

def crcPows : List (List Nat) := [
  [3988292384, 1, 2, 4, 8, 16, 32, 64, 128, 256, 512, 1024, 2048, 4096, 8192, 16384, 32768, 65536, 131072, 262144, 524288, 1048576, 2097152, 4194304, 8388608, 16777216, 33554432, 67108864, 134217728, 268435456, 536870912, 1073741824],
  [1994146192, 3988292384, 1, 2, 4, 8, 16, 32, 64, 128, 256, 512, 1024, 2048, 4096, 8192, 16384, 32768, 65536, 131072, 262144, 524288, 1048576, 2097152, 4194304, 8388608, 16777216, 33554432, 67108864, 134217728, 268435456, 536870912],
  [498536548, 997073096, 1994146192, 3988292384, 1, 2, 4, 8, 16, 32, 64, 128, 256, 512, 1024, 2048, 4096, 8192, 16384, 32768, 65536, 131072, 262144, 524288, 1048576, 2097152, 4194304, 8388608, 16777216, 33554432, 67108864, 134217728],
  [1996959894, 3993919788, 124634137, 249268274, 498536548, 997073096, 1994146192, 3988292384, 1, 2, 4, 8, 16, 32, 64, 128, 256, 512, 1024, 2048, 4096, 8192, 16384, 32768, 65536, 131072, 262144, 524288, 1048576, 2097152, 4194304, 8388608],
  [421212481, 842424962, 1684849924, 3369699848, 1254232657, 2508465314, 4034481925, 998479947, 1996959894, 3993919788, 124634137, 249268274, 498536548, 997073096, 1994146192, 3988292384, 1, 2, 4, 8, 16, 32, 64, 128, 256, 512, 1024, 2048, 4096, 8192, 16384, 32768],
  [3099354981, 2852767883, 2405603159, 3316918511, 1343838111, 2687676222, 2601801789, 3982079547, 29518391, 59036782, 118073564, 236147128, 472294256, 944588512, 1889177024, 3778354048, 421212481, 842424962, 1684849924, 3369699848, 1254232657, 2508465314, 4034481925, 998479947, 1996959894, 3993919788, 124634137, 249268274, 498536548, 997073096, 1994146192, 3988292384],
  [3433693342, 1109723005, 2219446010, 3555007413, 2092642603, 4185285206, 698204909, 1396409818, 2792819636, 2543784233, 4098827283, 871321191, 1742642382, 3485284764, 1141601657, 2283203314, 3411858341, 1304994059, 2609988118, 3964895853, 64357019, 128714038, 257428076, 514856152, 1029712304, 2059424608, 4118849216, 812665793, 1625331586, 3250663172, 1492342857, 2984685714],
  [2926088593, 2275419491, 3560000647, 1930665807, 3861331614, 390036349, 780072698, 1560145396, 3120290792, 2827399569, 2323408227, 3481914503, 1147313999, 2294627998, 3405478781, 1317531835, 2635063670, 3782132909, 430739227, 861478454, 1722956908, 3445913816, 1102706673, 2205413346, 3717650821, 1616688459, 3233376918, 1510200173, 3020400346, 3011398645, 3180171691, 2691310871],
  [4057597354, 952438037, 1904876074, 3809752148, 492400361, 984800722, 1969601444, 3939202888, 250079441, 500158882, 1000317764, 2000635528, 4001271056, 126622817, 253245634, 506491268, 1012982536, 2025965072, 4051930144, 947265025, 1894530050, 3789060100, 415364681, 830729362, 1661458724, 3322917448, 1466852049, 2933704098, 2261290245, 3605011531, 1991327447, 3982654894],
  [2402626965, 3306904939, 1363655831, 2727311662, 2658137117, 3887001211, 338483895, 676967790, 1353935580, 2707871160, 2579279153, 3892861987, 190955015, 381910030, 763820060, 1527640120, 3055280240, 3074868897, 3053226755, 2961707079, 3126929103, 2947763167, 2216137215, 3546162623, 2110606655, 4221213310, 742666941, 1485333882, 2970667764, 3109065641, 2848989459, 2295415911],
  [872412467, 1744824934, 3489649868, 1150201817, 2300403634, 3377183013, 1239839755, 2479679510, 4243117677, 580954779, 1161909558, 2323819116, 3463729817, 1201251187, 2402502374, 3306654605, 1365119323, 2730238646, 2651407149, 3882057755, 364250743, 728501486, 1457002972, 2914005944, 2148622641, 3679700003, 1842777607, 3685555214, 1814773341, 3629546682, 1809710901, 3619421802],
  [3459477963, 1192748503, 2385497006, 3341717789, 1428956283, 2857912566, 2411829165, 3304204571, 1385518199, 2771036398, 2435078045, 4181305723, 688018615, 1376037230, 2752074460, 2472780793, 4256580019, 538805543, 1077611086, 2155222172, 3684511609, 1816877235, 3633754470, 1784439949, 3568879898, 1912640629, 3825281258, 326326165, 652652330, 1305304660, 2610609320, 3963911953],
  [275962664, 551925328, 1103850656, 2207701312, 3697063105, 1674080195, 3348160390, 1414576461, 2829152922, 2318656373, 3474374827, 1163691799, 2327383598, 3456309789, 1198994043, 2397988086, 3333279661, 1445632283, 2891264566, 2212192813, 3704078875, 1660846711, 3321693422, 1351290781, 2702581562, 2573023285, 3922425387, 149416471, 298832942, 597665884, 1195331768, 2390663536],
  [4170314095, 710075551, 1420151102, 2840302204, 2313560761, 3367846707, 1242267687, 2484535374, 4083091165, 1036979195, 2073958390, 4147916780, 889805209, 1779610418, 3559220836, 1933298313, 3866596626, 396242021, 792484042, 1584968084, 3169936168, 2727591953, 2656470627, 3889957511, 348721999, 697443998, 1394887996, 2789775992, 2548052657, 4105265955, 840155143, 1680310286],
  [2293676643, 3390861959, 1330242383, 2660484766, 3864431485, 400298171, 800596342, 1601192684, 3202385368, 2796555761, 2517704099, 4149427463, 903314511, 1806629022, 3613258044, 1976230969, 3952461938, 207263397, 414526794, 829053588, 1658107176, 3316214352, 1344525025, 2689050050, 2617134533, 3968703947, 40517079, 81034158, 162068316, 324136632, 648273264, 1296546528],
  [1524148524, 3048297048, 2954076913, 3142992803, 2916974855, 2160723023, 3672444639, 1857756159, 3715512318, 1637706173, 3275412346, 1560584373, 3121168746, 2942534805, 2243301227, 3491567767, 2068526959, 4137053918, 912120829, 1824241658, 3648483316, 1772083625, 3544167250, 2098094309, 4196188618, 793282005, 1586564010, 3173128020, 2704615657, 2568705939, 3913787751, 167662735],
  [3043423970, 2981948293, 3087585611, 2875237591, 2377142255, 3222378911, 1532114303, 3064228606, 3057243069, 3070402875, 3044295735, 2979630639, 3091339807, 2884973183, 2358993599, 3259482943, 1610514495, 3221028990, 2760574653, 2456226619, 4290711607, 604972591, 1209945182, 2419890364, 4211619641, 761358387, 1522716774, 3045433548, 2960803801, 3146090995, 2893682087, 2206543119],
  [2643536319, 3763557695, 467119167, 934238334, 1868476668, 3736953336, 1712047537, 3424095074, 1130238085, 2260476170, 3590931541, 2003013355, 4006026710, 117390829, 234781658, 469563316, 939126632, 1878253264, 3756506528, 1690205441, 3380410882, 1233711685, 2467423370, 4250062677, 567580907, 1135161814, 2270323628, 3587555609, 1893368947, 3786737894, 404428685, 808857370],
  [786709036, 1573418072, 3146836144, 2890979105, 2211489795, 3704641095, 1657907919, 3315815838, 1345826173, 2691652346, 2611983285, 3962462507, 53330967, 106661934, 213323868, 426647736, 853295472, 1706590944, 3413181888, 1301482945, 2602965890, 3980210501, 17523915, 35047830, 70095660, 140191320, 280382640, 560765280, 1121530560, 2243061120, 3491089729, 2069535939],
  [457511406, 915022812, 1830045624, 3660091248, 1864374433, 3728748866, 1743873221, 3487746442, 1152685397, 2305370794, 3382924053, 1211605099, 2423210198, 4222584813, 741214619, 1482429238, 2964858476, 3120646809, 2943587187, 2241208487, 3495773967, 2076936287, 4153872574, 878651197, 1757302394, 3514604788, 2038972329, 4077944658, 1028782309, 2057564618, 4115129236, 838779241],
  [3168883202, 2729681477, 2652259019, 3881665495, 365560303, 731120606, 1462241212, 2924482424, 2278627505, 3570612003, 1926719495, 3853438990, 271361629, 542723258, 1085446516, 2170893032, 3652936593, 1745338723, 3490677446, 2070807501, 4141615002, 919144821, 1838289642, 3676579284, 1832472041, 3664944082, 1871983077, 3743966154, 1696711125, 3393422250, 1341522197, 2683044394],
  [4278773231, 627101087, 1254202174, 2508404348, 4034357945, 1000330035, 2000660070, 4001320140, 126853081, 253706162, 507412324, 1014824648, 2029649296, 4059298592, 949415937, 1898831874, 3797663748, 533104201, 1066208402, 2132416804, 4264833608, 655975121, 1311950242, 2623900484, 3820622025, 470099923, 940199846, 1880399692, 3760799384, 455310193, 910620386, 1821240772],
  [1870010158, 3740020316, 1722374905, 3444749810, 1104440741, 2208881482, 3693129941, 1664116715, 3328233430, 1471191533, 2942383066, 2243125749, 3491218859, 2069794071, 4139588142, 906703389, 1813406778, 3626813556, 1797822121, 3595644242, 2010340581, 4020681162, 71071189, 142142378, 284284756, 568569512, 1137139024, 2274278048, 3563877121, 1940512835, 3881025670, 366380877],
  [1458948793, 2917897586, 2158374053, 3661455115, 1863039063, 3726078126, 1734338333, 3468676666, 1175362101, 2350724202, 3276500629, 1575476075, 3150952150, 2901306349, 2192429467, 3727336823, 1730432175, 3460864350, 1205875965, 2411751930, 3304183221, 1385344299, 2770688598, 2436608749, 4177945499, 696107383, 1392214766, 2784429532, 2426342905, 4199488947, 804207911, 1608415822],
  [945394604, 1890789208, 3781578416, 431856417, 863712834, 1727425668, 3454851336, 1084798033, 2169596066, 3654539013, 1758898251, 3517796502, 2016126829, 4032253658, 1004510197, 2009020394, 4018040788, 93182441, 186364882, 372729764, 745459528, 1490919056, 2981838112, 3087498241, 2877292099, 2374957767, 3228365775, 1537794527, 3075589054, 3050471741, 2966684731, 3134787127],
  [3022289696, 3006918657, 3171083843, 2708785863, 2576913359, 3896517087, 200361471, 400722942, 801445884, 1602891768, 3205783536, 2774120865, 2445440259, 4176866375, 714792655, 1429585310, 2859170620, 2410147897, 3292456499, 1393347111, 2786694222, 2537696989, 4126497787, 815509943, 1631019886, 3262039772, 1605143545, 3210287090, 2781030821, 2432128267, 4204768343, 776888047],
  [1766950567, 3533901134, 2117541085, 4235082170, 598570293, 1197140586, 2394281172, 3323637737, 1464097171, 2928194342, 2254462989, 3618752091, 1947372279, 3894744558, 188427677, 376855354, 753710708, 1507421416, 3014842832, 3155473889, 2740481411, 2646728007, 3774004431, 445939679, 891879358, 1783758716, 3567517432, 1916206001, 3832412002, 329967749, 659935498, 1319870996],
  [1723596830, 3447193660, 1098974777, 2197949554, 3715440293, 1637563147, 3275126294, 1562241645, 3124483290, 2936451061, 2239519147, 3515462935, 2019716207, 4039432414, 989378557, 1978757114, 3957514228, 213170601, 426341202, 852682404, 1705364808, 3410729616, 1306932065, 2613864130, 3974745029, 44208587, 88417174, 176834348, 353668696, 707337392, 1414674784, 2829349568],
  [3045795763, 2959558951, 3149894671, 2886610527, 2204982015, 3719017407, 1613127999, 3226255998, 1541964477, 3083928954, 3033730229, 3000442667, 3202299927, 2798614127, 2532305567, 4138652543, 908894399, 1817788798, 3635577596, 1779696569, 3559393138, 1931544741, 3863089482, 401941717, 803883434, 1607766868, 3215533736, 2753776401, 2469892195, 4246611591, 558713679, 1117427358],
  [4263981410, 658465925, 1316931850, 2633863700, 3800703593, 509952659, 1019905318, 2039810636, 4079621272, 1025847153, 2051694306, 4103388612, 844660169, 1689320338, 3378640676, 1236461577, 2472923154, 4256867941, 537152139, 1074304278, 2148608556, 3679670809, 1842848371, 3685696742, 1815056269, 3630112538, 1808742517, 3617485034, 1951262613, 3902525226, 172398613, 344797226],
  [3553200147, 2095191655, 4190383310, 687431645, 1374863290, 2749726580, 2629564585, 3792107283, 528279655, 1056559310, 2113118620, 4226237240, 750747697, 1501495394, 3002990788, 3196913609, 2792032723, 2544309735, 4097781135, 856644959, 1713289918, 3426579836, 1124854969, 2249709938, 3613308069, 1976332043, 3952664086, 205568621, 411137242, 822274484, 1644548968, 3289097936],
  [4158054068, 886881065, 1773762130, 3547524260, 2106908425, 4213816850, 757234277, 1514468554, 3028937108, 2992821609, 3216288915, 2753060711, 2470557839, 4260525919, 546695423, 1093390846, 2186781692, 3755884985, 1691190579, 3382381158, 1212617357, 2425234714, 4201466997, 799776427, 1599552854, 3199105708, 2788029209, 2536169587, 4112828071, 825789199, 1651578398, 3303156796]]

end Tiles
