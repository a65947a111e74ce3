/-! Generated from /repo/src/kpack.cpp by a script: the literal tables of `kpack_data<T>`. Do not edit. -/

namespace Obake.KpackTables

/-- src/kpack.cpp:39-40 `kpack_data<int32_t>::deltas[10]`. -/
def i32_deltas : List Int :=
  [2147483647, 46337, 1289, 211, 71, 31, 19, 13, 7, 7]

/-- src/kpack.cpp:42-43 `kpack_data<int32_t>::lims[10]`. -/
def i32_lims : List Int :=
  [1073741823, 23168, 644, 105, 35, 15, 9, 6, 3, 3]

/-- src/kpack.cpp:45-47 `kpack_data<int32_t>::klims[10]`. -/
def i32_klims : List Int :=
  [1073741823, 1073558784, 1070850284, 991059720, 902114675, 443751840, 446935869, 407865360, 20176803, 141237624]

/-- src/kpack.cpp:49-159 `kpack_data<int32_t>::divcnst[10][11]`. -/
def i32_divcnst : List (List (Nat × Nat × Nat)) :=
  [
    [(1, 0, 0), (3, 1, 30), (0, 0, 0), (0, 0, 0), (0, 0, 0), (0, 0, 0), (0, 0, 0), (0, 0, 0), (0, 0, 0), (0, 0, 0), (0, 0, 0)],
    [(1, 0, 0), (1779551485, 1, 15), (732283, 1, 30), (0, 0, 0), (0, 0, 0), (0, 0, 0), (0, 0, 0), (0, 0, 0), (0, 0, 0), (0, 0, 0), (0, 0, 0)],
    [(1, 0, 0), (2528999363, 1, 10), (1126089227, 1, 20), (11597390, 1, 30), (0, 0, 0), (0, 0, 0), (0, 0, 0), (0, 0, 0), (0, 0, 0), (0, 0, 0), (0, 0, 0)],
    [(1, 0, 0), (915988286, 1, 7), (2027329524, 1, 15), (3375686666, 1, 23), (358320416, 1, 30), (0, 0, 0), (0, 0, 0), (0, 0, 0), (0, 0, 0), (0, 0, 0), (0, 0, 0)],
    [(1, 0, 0), (3448072337, 1, 6), (2684674063, 1, 12), (1996540408, 1, 18), (1376250916, 1, 24), (817116726, 1, 30), (0, 0, 0), (0, 0, 0), (0, 0, 0), (0, 0, 0), (0, 0, 0)],
    [(1, 0, 0), (138547333, 1, 4), (281563934, 1, 9), (429193973, 1, 14), (581586272, 1, 19), (738894452, 1, 24), (901277089, 1, 29), (0, 0, 0), (0, 0, 0), (0, 0, 0), (0, 0, 0)],
    [(1, 0, 0), (2938661835, 1, 4), (1796509867, 1, 8), (834697683, 1, 12), (24750581, 1, 16), (2980347023, 1, 21), (1831613183, 1, 25), (864258371, 1, 29), (0, 0, 0), (0, 0, 0), (0, 0, 0)],
    [(1, 0, 0), (991146300, 1, 3), (2211018668, 1, 7), (3712400044, 1, 11), (632643375, 1, 14), (1769784299, 1, 18), (3169342359, 1, 22), (298454030, 1, 25), (1358474336, 1, 29), (0, 0, 0), (0, 0, 0)],
    [(1, 0, 0), (613566757, 1, 2), (1314785907, 1, 5), (2116179222, 1, 8), (3032057296, 1, 11), (4078775095, 1, 14), (490028356, 1, 16), (1173599164, 1, 19), (1954822943, 1, 22), (2847650120, 1, 25), (0, 0, 0)],
    [(1, 0, 0), (613566757, 1, 2), (1314785907, 1, 5), (2116179222, 1, 8), (3032057296, 1, 11), (4078775095, 1, 14), (490028356, 1, 16), (1173599164, 1, 19), (1954822943, 1, 22), (2847650120, 1, 25), (3868024037, 1, 28)] ]

/-- src/kpack.cpp:161-162 `kpack_data<uint32_t>::deltas[10]`. -/
def u32_deltas : List Int :=
  [4294967295, 65521, 1621, 251, 83, 37, 19, 13, 7, 7]

/-- src/kpack.cpp:164-165 `kpack_data<uint32_t>::lims[10]`. -/
def u32_lims : List Int :=
  [4294967294, 65520, 1620, 250, 82, 36, 18, 12, 6, 6]

/-- src/kpack.cpp:167-169 `kpack_data<uint32_t>::klims[10]`. -/
def u32_klims : List Int :=
  [4294967294, 4293001440, 4259406060, 3969126000, 3939040642, 2565726408, 893871738, 815730720, 40353606, 282475248]

/-- src/kpack.cpp:171-281 `kpack_data<uint32_t>::divcnst[10][11]`. -/
def u32_divcnst : List (List (Nat × Nat × Nat)) :=
  [
    [(1, 0, 0), (2, 1, 31), (0, 0, 0), (0, 0, 0), (0, 0, 0), (0, 0, 0), (0, 0, 0), (0, 0, 0), (0, 0, 0), (0, 0, 0), (0, 0, 0)],
    [(1, 0, 0), (983266, 1, 15), (1966756, 1, 31), (0, 0, 0), (0, 0, 0), (0, 0, 0), (0, 0, 0), (0, 0, 0), (0, 0, 0), (0, 0, 0), (0, 0, 0)],
    [(1, 0, 0), (1131370164, 1, 10), (2560763190, 1, 21), (35858132, 1, 31), (0, 0, 0), (0, 0, 0), (0, 0, 0), (0, 0, 0), (0, 0, 0), (0, 0, 0), (0, 0, 0)],
    [(1, 0, 0), (85557118, 1, 7), (172818560, 1, 15), (261818279, 1, 23), (352590900, 1, 31), (0, 0, 0), (0, 0, 0), (0, 0, 0), (0, 0, 0), (0, 0, 0), (0, 0, 0)],
    [(1, 0, 0), (2328596727, 1, 6), (812359180, 1, 12), (3581391606, 1, 19), (1778369689, 1, 25), (388087729, 1, 31), (0, 0, 0), (0, 0, 0), (0, 0, 0), (0, 0, 0), (0, 0, 0)],
    [(1, 0, 0), (3134165325, 1, 5), (2130228484, 1, 10), (1261958784, 1, 15), (511022827, 1, 20), (4018096701, 1, 26), (2894709674, 1, 31), (0, 0, 0), (0, 0, 0), (0, 0, 0), (0, 0, 0)],
    [(1, 0, 0), (2938661835, 1, 4), (1796509867, 1, 8), (834697683, 1, 12), (24750581, 1, 16), (2980347023, 1, 21), (1831613183, 1, 25), (864258371, 1, 29), (0, 0, 0), (0, 0, 0), (0, 0, 0)],
    [(1, 0, 0), (991146300, 1, 3), (2211018668, 1, 7), (3712400044, 1, 11), (632643375, 1, 14), (1769784299, 1, 18), (3169342359, 1, 22), (298454030, 1, 25), (1358474336, 1, 29), (0, 0, 0), (0, 0, 0)],
    [(1, 0, 0), (613566757, 1, 2), (1314785907, 1, 5), (2116179222, 1, 8), (3032057296, 1, 11), (4078775095, 1, 14), (490028356, 1, 16), (1173599164, 1, 19), (1954822943, 1, 22), (2847650120, 1, 25), (0, 0, 0)],
    [(1, 0, 0), (613566757, 1, 2), (1314785907, 1, 5), (2116179222, 1, 8), (3032057296, 1, 11), (4078775095, 1, 14), (490028356, 1, 16), (1173599164, 1, 19), (1954822943, 1, 22), (2847650120, 1, 25), (3868024037, 1, 28)] ]

/-- src/kpack.cpp:289-309 `kpack_data<int64_t>::deltas[21]`. -/
def i64_deltas : List Int :=
  [9223372036854775807, 3037000493, 2097143, 55103, 6203, 1447, 509, 233, 127, 73, 47, 37, 23, 19, 17, 13, 11, 7, 7, 7, 7]

/-- src/kpack.cpp:311-331 `kpack_data<int64_t>::lims[21]`. -/
def i64_lims : List Int :=
  [4611686018427387903, 1518500246, 1048571, 27551, 3101, 723, 254, 116, 63, 36, 23, 18, 11, 9, 8, 6, 5, 3, 3, 3, 3]

/-- src/kpack.cpp:333-338 `kpack_data<int64_t>::klims[21]`. -/
def i64_klims : List Int :=
  [4611686018427387903, 4611685997241121524, 4611626645054291603, 4609682146931245440, 4591757141950655621, 4589667151069337064, 4425827476873538234, 4343275444053330720, 4297377374304698943, 2148812914851778824, 1236079607542006151, 3291476002920017640, 252018180968233691, 399503342891442060, 1431211525754907896, 332708304591589920, 252723514249646885, 814206798955224, 5699447592686571, 39896133148806000, 279272932041642003]

/-- src/kpack.cpp:340-784 `kpack_data<int64_t>::divcnst[21][22]`. -/
def i64_divcnst : List (List (Nat × Nat × Nat)) :=
  [
    [(1, 0, 0), (3, 1, 62), (0, 0, 0), (0, 0, 0), (0, 0, 0), (0, 0, 0), (0, 0, 0), (0, 0, 0), (0, 0, 0), (0, 0, 0), (0, 0, 0), (0, 0, 0), (0, 0, 0), (0, 0, 0), (0, 0, 0), (0, 0, 0), (0, 0, 0), (0, 0, 0), (0, 0, 0), (0, 0, 0), (0, 0, 0), (0, 0, 0)],
    [(1, 0, 0), (7640891636879823516, 1, 31), (84745065908, 1, 62), (0, 0, 0), (0, 0, 0), (0, 0, 0), (0, 0, 0), (0, 0, 0), (0, 0, 0), (0, 0, 0), (0, 0, 0), (0, 0, 0), (0, 0, 0), (0, 0, 0), (0, 0, 0), (0, 0, 0), (0, 0, 0), (0, 0, 0), (0, 0, 0), (0, 0, 0), (0, 0, 0), (0, 0, 0)],
    [(1, 0, 0), (79165176939955, 1, 20), (158330693621449, 1, 41), (237496550045941, 1, 62), (0, 0, 0), (0, 0, 0), (0, 0, 0), (0, 0, 0), (0, 0, 0), (0, 0, 0), (0, 0, 0), (0, 0, 0), (0, 0, 0), (0, 0, 0), (0, 0, 0), (0, 0, 0), (0, 0, 0), (0, 0, 0), (0, 0, 0), (0, 0, 0), (0, 0, 0), (0, 0, 0)],
    [(1, 0, 0), (3492638893000594378, 1, 15), (7646561229201653362, 1, 31), (12586971991324815468, 1, 47), (8018970390518083, 1, 62), (0, 0, 0), (0, 0, 0), (0, 0, 0), (0, 0, 0), (0, 0, 0), (0, 0, 0), (0, 0, 0), (0, 0, 0), (0, 0, 0), (0, 0, 0), (0, 0, 0), (0, 0, 0), (0, 0, 0), (0, 0, 0), (0, 0, 0), (0, 0, 0), (0, 0, 0)],
    [(1, 0, 0), (5914972426665854936, 1, 12), (13726588438151697856, 1, 25), (2798132593803535251, 1, 37), (9610329867974666926, 1, 50), (80061482495278168, 1, 62), (0, 0, 0), (0, 0, 0), (0, 0, 0), (0, 0, 0), (0, 0, 0), (0, 0, 0), (0, 0, 0), (0, 0, 0), (0, 0, 0), (0, 0, 0), (0, 0, 0), (0, 0, 0), (0, 0, 0), (0, 0, 0), (0, 0, 0), (0, 0, 0)],
    [(1, 0, 0), (7661709183344464770, 1, 10), (29452287882233304, 1, 20), (7703394245944888962, 1, 31), (58951599632637155, 1, 41), (7745145863405032076, 1, 52), (88498010330070845, 1, 62), (0, 0, 0), (0, 0, 0), (0, 0, 0), (0, 0, 0), (0, 0, 0), (0, 0, 0), (0, 0, 0), (0, 0, 0), (0, 0, 0), (0, 0, 0), (0, 0, 0), (0, 0, 0), (0, 0, 0), (0, 0, 0), (0, 0, 0)],
    [(1, 0, 0), (108723442477659440, 1, 8), (218087691099587993, 1, 17), (328096522719288226, 1, 26), (438753736450695927, 1, 35), (550063153799381079, 1, 44), (662028618794522136, 1, 53), (774653998121658131, 1, 62), (0, 0, 0), (0, 0, 0), (0, 0, 0), (0, 0, 0), (0, 0, 0), (0, 0, 0), (0, 0, 0), (0, 0, 0), (0, 0, 0), (0, 0, 0), (0, 0, 0), (0, 0, 0), (0, 0, 0), (0, 0, 0)],
    [(1, 0, 0), (1820923234743861319, 1, 7), (3821594256608361308, 1, 15), (6019756409386524386, 1, 23), (8434904525743647768, 1, 31), (11088457820968641699, 1, 39), (14003949853490523443, 1, 47), (17207237236862204672, 1, 55), (1139992440252614928, 1, 62), (0, 0, 0), (0, 0, 0), (0, 0, 0), (0, 0, 0), (0, 0, 0), (0, 0, 0), (0, 0, 0), (0, 0, 0), (0, 0, 0), (0, 0, 0), (0, 0, 0), (0, 0, 0), (0, 0, 0)],
    [(1, 0, 0), (145249953336295683, 1, 6), (291643607092562197, 1, 13), (439189966783917424, 1, 20), (587898108835047101, 1, 27), (737777181138547878, 1, 34), (888836403617666772, 1, 41), (1041085068793471641, 1, 48), (1194532542356487572, 1, 55), (1349188263742834338, 1, 62), (0, 0, 0), (0, 0, 0), (0, 0, 0), (0, 0, 0), (0, 0, 0), (0, 0, 0), (0, 0, 0), (0, 0, 0), (0, 0, 0), (0, 0, 0), (0, 0, 0), (0, 0, 0)],
    [(1, 0, 0), (13898231836356511492, 1, 6), (9910495080320969465, 1, 12), (6414397102426795633, 1, 18), (3349324902629163781, 1, 24), (662138316505212567, 1, 30), (15059241487214966404, 1, 37), (10928366555046190210, 1, 43), (7306777573418769985, 1, 49), (4131685863498839924, 1, 55), (1348043816445750556, 1, 61), (0, 0, 0), (0, 0, 0), (0, 0, 0), (0, 0, 0), (0, 0, 0), (0, 0, 0), (0, 0, 0), (0, 0, 0), (0, 0, 0), (0, 0, 0), (0, 0, 0)],
    [(1, 0, 0), (6672226579852391011, 1, 5), (15757811709864157492, 1, 11), (4841464119361909905, 1, 16), (13264858572174991731, 1, 22), (3144134323488435344, 1, 27), (10953600977794090202, 1, 33), (1570512131569523664, 1, 38), (8810796290925784936, 1, 44), (111581280935783909, 1, 49), (6824167047509628673, 1, 55), (15964709367950608777, 1, 61), (0, 0, 0), (0, 0, 0), (0, 0, 0), (0, 0, 0), (0, 0, 0), (0, 0, 0), (0, 0, 0), (0, 0, 0), (0, 0, 0), (0, 0, 0)],
    [(1, 0, 0), (13461137567301564693, 1, 5), (9149261669867630057, 1, 10), (5420071704519362263, 1, 15), (2194826329083022550, 1, 20), (17257593920310036130, 1, 26), (12432683380577659408, 1, 31), (8259787778646955215, 1, 36), (4650796987787967806, 1, 41), (1529507655153167884, 1, 46), (16106772430269206438, 1, 52), (11437378308109914809, 1, 57), (7398983391647824752, 1, 62), (0, 0, 0), (0, 0, 0), (0, 0, 0), (0, 0, 0), (0, 0, 0), (0, 0, 0), (0, 0, 0), (0, 0, 0), (0, 0, 0)],
    [(1, 0, 0), (7218291159277650633, 1, 4), (17261131033055251513, 1, 9), (6393516870126833169, 1, 13), (16113618978584548955, 1, 18), (5595247614842866172, 1, 22), (15002983492972073133, 1, 27), (4822631624851578644, 1, 31), (13928039506897238311, 1, 36), (4074844504103867464, 1, 40), (12887640034552596669, 1, 45), (3351088349429334148, 1, 49), (11880674949788028577, 1, 54), (2650590899158330257, 1, 58), (0, 0, 0), (0, 0, 0), (0, 0, 0), (0, 0, 0), (0, 0, 0), (0, 0, 0), (0, 0, 0), (0, 0, 0)],
    [(1, 0, 0), (12621456471485482685, 1, 4), (7715951122244161480, 1, 8), (3584999249198838359, 1, 12), (106302935055408363, 1, 16), (12800492993684065191, 1, 21), (7866718719885073064, 1, 25), (3711961436685921799, 1, 29), (213218461360320733, 1, 33), (12980561248513391288, 1, 38), (8018355145004505566, 1, 42), (3839655268365443906, 1, 46), (320750109090444613, 1, 50), (13161667181532547296, 1, 55), (8170865404389057994, 1, 59), (0, 0, 0), (0, 0, 0), (0, 0, 0), (0, 0, 0), (0, 0, 0), (0, 0, 0), (0, 0, 0)],
    [(1, 0, 0), (16276538888567251426, 1, 4), (14233992831962733600, 1, 8), (12311596543393775647, 1, 12), (10502282389446521102, 1, 16), (8799398479849105060, 1, 20), (7196684211992713490, 1, 24), (5688247254010227308, 1, 28), (4268541881791416783, 1, 32), (2932348590291359818, 1, 36), (1674754904173659146, 1, 40), (491137317239352630, 1, 44), (17201032662194268141, 1, 49), (15104104618905808156, 1, 53), (13130525284046081110, 1, 57), (11273038851236926244, 1, 61), (0, 0, 0), (0, 0, 0), (0, 0, 0), (0, 0, 0), (0, 0, 0), (0, 0, 0)],
    [(1, 0, 0), (4256940940086819604, 1, 3), (9496252866347520655, 1, 7), (15944636775591460410, 1, 11), (2717182602783378861, 1, 14), (7601165681974055125, 1, 18), (13612221779439502835, 1, 22), (1281850297459097277, 1, 25), (5834602844651862406, 1, 29), (11437990595042957949, 1, 33), (18334467826293537080, 1, 37), (4187847864753887582, 1, 40), (9411215235168527396, 1, 44), (15839975075678853322, 1, 48), (2652775402837159115, 1, 51), (7521895282040246207, 1, 55), (13514658210290199551, 1, 59), (0, 0, 0), (0, 0, 0), (0, 0, 0), (0, 0, 0), (0, 0, 0)],
    [(1, 0, 0), (8384883669867978008, 1, 3), (1067167012528651747, 1, 6), (9937126597182380548, 1, 10), (2196070959666399049, 1, 13), (11579168702110012987, 1, 17), (3390283399613768096, 1, 20), (13316204978397095237, 1, 24), (4653582509640737004, 1, 27), (15153730956618140923, 1, 31), (5989965039256042958, 1, 34), (17097560090604040491, 1, 38), (7403658954882151735, 1, 41), (353549037993505366, 1, 44), (8899136816040349449, 1, 48), (1441169300654012795, 1, 51), (10481129925364723891, 1, 55), (2591709743799012389, 1, 58), (0, 0, 0), (0, 0, 0), (0, 0, 0), (0, 0, 0)],
    [(1, 0, 0), (2635249153387078803, 1, 2), (5646962471543740291, 1, 5), (9088920549437067706, 1, 8), (13022586924172299038, 1, 11), (17518205638155420560, 1, 14), (2104655761641861056, 1, 16), (5040570023834920009, 1, 19), (8395900609198415956, 1, 22), (12230564135328125609, 1, 25), (16613036736619222355, 1, 28), (1587416389335462082, 1, 30), (4449439312627606896, 1, 33), (7720322653532915255, 1, 36), (11458475043138981950, 1, 39), (15730649202688772460, 1, 42), (1083194941375204999, 1, 44), (3873186229244455944, 1, 47), (7061747701095028452, 1, 50), (0, 0, 0), (0, 0, 0), (0, 0, 0)],
    [(1, 0, 0), (2635249153387078803, 1, 2), (5646962471543740291, 1, 5), (9088920549437067706, 1, 8), (13022586924172299038, 1, 11), (17518205638155420560, 1, 14), (2104655761641861056, 1, 16), (5040570023834920009, 1, 19), (8395900609198415956, 1, 22), (12230564135328125609, 1, 25), (16613036736619222355, 1, 28), (1587416389335462082, 1, 30), (4449439312627606896, 1, 33), (7720322653532915255, 1, 36), (11458475043138981950, 1, 39), (15730649202688772460, 1, 42), (1083194941375204999, 1, 44), (3873186229244455944, 1, 47), (7061747701095028452, 1, 50), (10705817954638539891, 1, 53), (0, 0, 0), (0, 0, 0)],
    [(1, 0, 0), (2635249153387078803, 1, 2), (5646962471543740291, 1, 5), (9088920549437067706, 1, 8), (13022586924172299038, 1, 11), (17518205638155420560, 1, 14), (2104655761641861056, 1, 16), (5040570023834920009, 1, 19), (8395900609198415956, 1, 22), (12230564135328125609, 1, 25), (16613036736619222355, 1, 28), (1587416389335462082, 1, 30), (4449439312627606896, 1, 33), (7720322653532915255, 1, 36), (11458475043138981950, 1, 39), (15730649202688772460, 1, 42), (1083194941375204999, 1, 44), (3873186229244455944, 1, 47), (7061747701095028452, 1, 50), (10705817954638539891, 1, 53), (14870469672973981534, 1, 56), (0, 0, 0)],
    [(1, 0, 0), (2635249153387078803, 1, 2), (5646962471543740291, 1, 5), (9088920549437067706, 1, 8), (13022586924172299038, 1, 11), (17518205638155420560, 1, 14), (2104655761641861056, 1, 16), (5040570023834920009, 1, 19), (8395900609198415956, 1, 22), (12230564135328125609, 1, 25), (16613036736619222355, 1, 28), (1587416389335462082, 1, 30), (4449439312627606896, 1, 33), (7720322653532915255, 1, 36), (11458475043138981950, 1, 39), (15730649202688772460, 1, 42), (1083194941375204999, 1, 44), (3873186229244455944, 1, 47), (7061747701095028452, 1, 50), (10705817954638539891, 1, 53), (14870469672973981534, 1, 56), (591663781538181613, 1, 58)] ]

/-- src/kpack.cpp:786-806 `kpack_data<uint64_t>::deltas[21]`. -/
def u64_deltas : List Int :=
  [18446744073709551615, 4294967291, 2642239, 65521, 7129, 1621, 563, 251, 137, 83, 53, 37, 29, 19, 17, 13, 11, 7, 7, 7, 7]

/-- src/kpack.cpp:808-828 `kpack_data<uint64_t>::lims[21]`. -/
def u64_lims : List Int :=
  [18446744073709551614, 4294967290, 2642238, 65520, 7128, 1620, 562, 250, 136, 82, 52, 36, 28, 18, 16, 12, 10, 6, 6, 6, 6]

/-- src/kpack.cpp:830-836 `kpack_data<uint64_t>::klims[21]`. -/
def u64_klims : List Int :=
  [18446744073709551614, 18446744030759878680, 18446598518342697918, 18429861372428076480, 18413785235633886648, 18142539992483535720, 17929111329964120666, 15753961211814252000, 17001416405572203976, 15516041187205853448, 9269035929372191596, 6582952005840035280, 10260628712958602188, 799006685782884120, 2862423051509815792, 665416609183179840, 505447028499293770, 1628413597910448, 11398895185373142, 79792266297612000, 558545864083284006]

/-- src/kpack.cpp:838-1282 `kpack_data<uint64_t>::divcnst[21][22]`. -/
def u64_divcnst : List (List (Nat × Nat × Nat)) :=
  [
    [(1, 0, 0), (2, 1, 63), (0, 0, 0), (0, 0, 0), (0, 0, 0), (0, 0, 0), (0, 0, 0), (0, 0, 0), (0, 0, 0), (0, 0, 0), (0, 0, 0), (0, 0, 0), (0, 0, 0), (0, 0, 0), (0, 0, 0), (0, 0, 0), (0, 0, 0), (0, 0, 0), (0, 0, 0), (0, 0, 0), (0, 0, 0), (0, 0, 0)],
    [(1, 0, 0), (21474836506, 1, 31), (42949673036, 1, 63), (0, 0, 0), (0, 0, 0), (0, 0, 0), (0, 0, 0), (0, 0, 0), (0, 0, 0), (0, 0, 0), (0, 0, 0), (0, 0, 0), (0, 0, 0), (0, 0, 0), (0, 0, 0), (0, 0, 0), (0, 0, 0), (0, 0, 0), (0, 0, 0), (0, 0, 0), (0, 0, 0), (0, 0, 0)],
    [(1, 0, 0), (10835713892937775587, 1, 21), (4794819346431614849, 1, 42), (145556515377898, 1, 63), (0, 0, 0), (0, 0, 0), (0, 0, 0), (0, 0, 0), (0, 0, 0), (0, 0, 0), (0, 0, 0), (0, 0, 0), (0, 0, 0), (0, 0, 0), (0, 0, 0), (0, 0, 0), (0, 0, 0), (0, 0, 0), (0, 0, 0), (0, 0, 0), (0, 0, 0), (0, 0, 0)],
    [(1, 0, 0), (4223091239536077, 1, 15), (8447149289233675, 1, 31), (12672174370428739, 1, 47), (16898166704507885, 1, 63), (0, 0, 0), (0, 0, 0), (0, 0, 0), (0, 0, 0), (0, 0, 0), (0, 0, 0), (0, 0, 0), (0, 0, 0), (0, 0, 0), (0, 0, 0), (0, 0, 0), (0, 0, 0), (0, 0, 0), (0, 0, 0), (0, 0, 0), (0, 0, 0), (0, 0, 0)],
    [(1, 0, 0), (2750580579373439945, 1, 12), (5911298226480638715, 1, 25), (9543308180906529068, 1, 38), (13716884495488783769, 1, 51), (33017831106885716, 1, 63), (0, 0, 0), (0, 0, 0), (0, 0, 0), (0, 0, 0), (0, 0, 0), (0, 0, 0), (0, 0, 0), (0, 0, 0), (0, 0, 0), (0, 0, 0), (0, 0, 0), (0, 0, 0), (0, 0, 0), (0, 0, 0), (0, 0, 0), (0, 0, 0)],
    [(1, 0, 0), (4859197852852546910, 1, 10), (10998394153063537700, 1, 21), (154009500760308630, 1, 31), (5053776173368963982, 1, 42), (11244227836232952977, 1, 53), (309304807093116307, 1, 63), (0, 0, 0), (0, 0, 0), (0, 0, 0), (0, 0, 0), (0, 0, 0), (0, 0, 0), (0, 0, 0), (0, 0, 0), (0, 0, 0), (0, 0, 0), (0, 0, 0), (0, 0, 0), (0, 0, 0), (0, 0, 0), (0, 0, 0)],
    [(1, 0, 0), (15104705182913149725, 1, 9), (12065408713840755820, 1, 18), (9301430397384156035, 1, 27), (6787830223270871683, 1, 36), (4501927400631437246, 1, 45), (2423095704021507526, 1, 54), (532577358259013714, 1, 63), (0, 0, 0), (0, 0, 0), (0, 0, 0), (0, 0, 0), (0, 0, 0), (0, 0, 0), (0, 0, 0), (0, 0, 0), (0, 0, 0), (0, 0, 0), (0, 0, 0), (0, 0, 0), (0, 0, 0), (0, 0, 0)],
    [(1, 0, 0), (367465021388636487, 1, 7), (742250063123660154, 1, 15), (1124500942343445249, 1, 23), (1514366380910238015, 1, 31), (1911998063273182032, 1, 39), (2317550695483993459, 1, 47), (2731182065388247345, 1, 55), (3153053104015693540, 1, 63), (0, 0, 0), (0, 0, 0), (0, 0, 0), (0, 0, 0), (0, 0, 0), (0, 0, 0), (0, 0, 0), (0, 0, 0), (0, 0, 0), (0, 0, 0), (0, 0, 0), (0, 0, 0), (0, 0, 0)],
    [(1, 0, 0), (16023084268404647025, 1, 7), (13758642990455539085, 1, 14), (11642960628576080572, 1, 21), (9666264699228849260, 1, 28), (7819424706846034604, 1, 35), (6093909969437273465, 1, 42), (4481750214777992986, 1, 49), (2975498765169322172, 1, 56), (1568198140717425354, 1, 63), (0, 0, 0), (0, 0, 0), (0, 0, 0), (0, 0, 0), (0, 0, 0), (0, 0, 0), (0, 0, 0), (0, 0, 0), (0, 0, 0), (0, 0, 0), (0, 0, 0), (0, 0, 0)],
    [(1, 0, 0), (10001246786950961720, 1, 6), (3489056108004579149, 1, 12), (15381959820982119925, 1, 19), (7638039652317761380, 1, 25), (1666824100576569248, 1, 31), (12571770701093140801, 1, 38), (5471146836981681091, 1, 44), (18438678053621506053, 1, 51), (9995027205196324177, 1, 57), (3484260285928714056, 1, 63), (0, 0, 0), (0, 0, 0), (0, 0, 0), (0, 0, 0), (0, 0, 0), (0, 0, 0), (0, 0, 0), (0, 0, 0), (0, 0, 0), (0, 0, 0), (0, 0, 0)],
    [(1, 0, 0), (3828569524732171091, 1, 5), (8451747818748377690, 1, 11), (14034453683220778112, 1, 17), (1164545138021968220, 1, 22), (5234812710268132714, 1, 28), (10149852797508784179, 1, 34), (16084995544365419910, 1, 40), (2402608148524393456, 1, 45), (6729832194648419792, 1, 51), (11955159344684979895, 1, 57), (18264988356049882662, 1, 63), (0, 0, 0), (0, 0, 0), (0, 0, 0), (0, 0, 0), (0, 0, 0), (0, 0, 0), (0, 0, 0), (0, 0, 0), (0, 0, 0), (0, 0, 0)],
    [(1, 0, 0), (13461137567301564693, 1, 5), (9149261669867630057, 1, 10), (5420071704519362263, 1, 15), (2194826329083022550, 1, 20), (17257593920310036130, 1, 26), (12432683380577659408, 1, 31), (8259787778646955215, 1, 36), (4650796987787967806, 1, 41), (1529507655153167884, 1, 46), (16106772430269206438, 1, 52), (11437378308109914809, 1, 57), (7398983391647824752, 1, 62), (0, 0, 0), (0, 0, 0), (0, 0, 0), (0, 0, 0), (0, 0, 0), (0, 0, 0), (0, 0, 0), (0, 0, 0), (0, 0, 0)],
    [(1, 0, 0), (1908283869694091547, 1, 4), (4013976415563433943, 1, 9), (6337499224798570380, 1, 14), (8901386462575272656, 1, 19), (11730503414604737235, 1, 24), (14852287637533801599, 1, 29), (18297015055938286415, 1, 34), (1825674756440979711, 1, 38), (3922821531973793297, 1, 43), (6236914525665173805, 1, 48), (8790396449738421262, 1, 53), (11608031676302004664, 1, 58), (14717146409061820830, 1, 63), (0, 0, 0), (0, 0, 0), (0, 0, 0), (0, 0, 0), (0, 0, 0), (0, 0, 0), (0, 0, 0), (0, 0, 0)],
    [(1, 0, 0), (12621456471485482685, 1, 4), (7715951122244161480, 1, 8), (3584999249198838359, 1, 12), (106302935055408363, 1, 16), (12800492993684065191, 1, 21), (7866718719885073064, 1, 25), (3711961436685921799, 1, 29), (213218461360320733, 1, 33), (12980561248513391288, 1, 38), (8018355145004505566, 1, 42), (3839655268365443906, 1, 46), (320750109090444613, 1, 50), (13161667181532547296, 1, 55), (8170865404389057994, 1, 59), (0, 0, 0), (0, 0, 0), (0, 0, 0), (0, 0, 0), (0, 0, 0), (0, 0, 0), (0, 0, 0)],
    [(1, 0, 0), (16276538888567251426, 1, 4), (14233992831962733600, 1, 8), (12311596543393775647, 1, 12), (10502282389446521102, 1, 16), (8799398479849105060, 1, 20), (7196684211992713490, 1, 24), (5688247254010227308, 1, 28), (4268541881791416783, 1, 32), (2932348590291359818, 1, 36), (1674754904173659146, 1, 40), (491137317239352630, 1, 44), (17201032662194268141, 1, 49), (15104104618905808156, 1, 53), (13130525284046081110, 1, 57), (11273038851236926244, 1, 61), (0, 0, 0), (0, 0, 0), (0, 0, 0), (0, 0, 0), (0, 0, 0), (0, 0, 0)],
    [(1, 0, 0), (4256940940086819604, 1, 3), (9496252866347520655, 1, 7), (15944636775591460410, 1, 11), (2717182602783378861, 1, 14), (7601165681974055125, 1, 18), (13612221779439502835, 1, 22), (1281850297459097277, 1, 25), (5834602844651862406, 1, 29), (11437990595042957949, 1, 33), (18334467826293537080, 1, 37), (4187847864753887582, 1, 40), (9411215235168527396, 1, 44), (15839975075678853322, 1, 48), (2652775402837159115, 1, 51), (7521895282040246207, 1, 55), (13514658210290199551, 1, 59), (0, 0, 0), (0, 0, 0), (0, 0, 0), (0, 0, 0), (0, 0, 0)],
    [(1, 0, 0), (8384883669867978008, 1, 3), (1067167012528651747, 1, 6), (9937126597182380548, 1, 10), (2196070959666399049, 1, 13), (11579168702110012987, 1, 17), (3390283399613768096, 1, 20), (13316204978397095237, 1, 24), (4653582509640737004, 1, 27), (15153730956618140923, 1, 31), (5989965039256042958, 1, 34), (17097560090604040491, 1, 38), (7403658954882151735, 1, 41), (353549037993505366, 1, 44), (8899136816040349449, 1, 48), (1441169300654012795, 1, 51), (10481129925364723891, 1, 55), (2591709743799012389, 1, 58), (0, 0, 0), (0, 0, 0), (0, 0, 0), (0, 0, 0)],
    [(1, 0, 0), (2635249153387078803, 1, 2), (5646962471543740291, 1, 5), (9088920549437067706, 1, 8), (13022586924172299038, 1, 11), (17518205638155420560, 1, 14), (2104655761641861056, 1, 16), (5040570023834920009, 1, 19), (8395900609198415956, 1, 22), (12230564135328125609, 1, 25), (16613036736619222355, 1, 28), (1587416389335462082, 1, 30), (4449439312627606896, 1, 33), (7720322653532915255, 1, 36), (11458475043138981950, 1, 39), (15730649202688772460, 1, 42), (1083194941375204999, 1, 44), (3873186229244455944, 1, 47), (7061747701095028452, 1, 50), (0, 0, 0), (0, 0, 0), (0, 0, 0)],
    [(1, 0, 0), (2635249153387078803, 1, 2), (5646962471543740291, 1, 5), (9088920549437067706, 1, 8), (13022586924172299038, 1, 11), (17518205638155420560, 1, 14), (2104655761641861056, 1, 16), (5040570023834920009, 1, 19), (8395900609198415956, 1, 22), (12230564135328125609, 1, 25), (16613036736619222355, 1, 28), (1587416389335462082, 1, 30), (4449439312627606896, 1, 33), (7720322653532915255, 1, 36), (11458475043138981950, 1, 39), (15730649202688772460, 1, 42), (1083194941375204999, 1, 44), (3873186229244455944, 1, 47), (7061747701095028452, 1, 50), (10705817954638539891, 1, 53), (0, 0, 0), (0, 0, 0)],
    [(1, 0, 0), (2635249153387078803, 1, 2), (5646962471543740291, 1, 5), (9088920549437067706, 1, 8), (13022586924172299038, 1, 11), (17518205638155420560, 1, 14), (2104655761641861056, 1, 16), (5040570023834920009, 1, 19), (8395900609198415956, 1, 22), (12230564135328125609, 1, 25), (16613036736619222355, 1, 28), (1587416389335462082, 1, 30), (4449439312627606896, 1, 33), (7720322653532915255, 1, 36), (11458475043138981950, 1, 39), (15730649202688772460, 1, 42), (1083194941375204999, 1, 44), (3873186229244455944, 1, 47), (7061747701095028452, 1, 50), (10705817954638539891, 1, 53), (14870469672973981534, 1, 56), (0, 0, 0)],
    [(1, 0, 0), (2635249153387078803, 1, 2), (5646962471543740291, 1, 5), (9088920549437067706, 1, 8), (13022586924172299038, 1, 11), (17518205638155420560, 1, 14), (2104655761641861056, 1, 16), (5040570023834920009, 1, 19), (8395900609198415956, 1, 22), (12230564135328125609, 1, 25), (16613036736619222355, 1, 28), (1587416389335462082, 1, 30), (4449439312627606896, 1, 33), (7720322653532915255, 1, 36), (11458475043138981950, 1, 39), (15730649202688772460, 1, 42), (1083194941375204999, 1, 44), (3873186229244455944, 1, 47), (7061747701095028452, 1, 50), (10705817954638539891, 1, 53), (14870469672973981534, 1, 56), (591663781538181613, 1, 58)] ]

end Obake.KpackTables
