/-!
# The sine table of `q/detail/sin_table.hpp`

Generated from the source text: the 1025 decimal literals of `sin_table` (sin_table.hpp 16-147), each
multiplied by `10^15` (every literal has exactly 15 decimals).
-/
namespace Verif
namespace SinTable

/-- Entries 0 to 63 of `sin_table` (sin_table.hpp 16-147), in units of `10^-15`. -/
def t0 : List Int := [
  0, 6135884649154, 12271538285720, 18406729905805, 24541228522912, 30674803176637, 36807222941359, 42938256934941,
  49067674327418, 55195244349690, 61320736302209, 67443919563664, 73564563599667, 79682437971430, 85797312344440, 91908956497133,
  98017140329561, 104121633872055, 110222207293883, 116318630911905, 122410675199216, 128498110793793, 134580708507126, 140658239332849,
  146730474455362, 152797185258443, 158858143333861, 164913120489970, 170961888760301, 177004220412149, 183039887955141, 189068664149806,
  195090322016128, 201104634842092, 207111376192219, 213110319916091, 219101240156870, 225083911359793, 231058108280671, 237023605994367,
  242980179903264, 248927605745720, 254865659604515, 260794117915276, 266712757474898, 272621355449949, 278519689385053, 284407537211272,
  290284677254462, 296150888243624, 302005949319228, 307849640041535, 313681740398892, 319502030816016, 325310292162263, 331106305759876,
  336889853392220, 342660717311994, 348418680249435, 354163525420490, 359895036534988, 365612997804774, 371317193951838, 377007410216418]
/-- Entries 64 to 127 of `sin_table` (sin_table.hpp 16-147), in units of `10^-15`. -/
def t1 : List Int := [
  382683432365090, 388345046698826, 393992040061048, 399624199845647, 405241314004990, 410843171057904, 416429560097637, 422000270799800,
  427555093430282, 433093818853152, 438616238538528, 444122144570429, 449611329654607, 455083587126344, 460538710958240, 465976495767966,
  471396736825998, 476799230063322, 482183772079123, 487550160148436, 492898192229784, 498227666972782, 503538383725718, 508830142543107,
  514102744193222, 519355990165590, 524589682678469, 529803624686295, 534997619887097, 540171472729893, 545324988422046, 550457972936605,
  555570233019602, 560661576197336, 565731810783613, 570780745886967, 575808191417845, 580813958095765, 585797857456439, 590759701858874,
  595699304492433, 600616479383869, 605511041404326, 610382806276309, 615231590580627, 620057211763289, 624859488142386, 629638238914927,
  634393284163645, 639124444863776, 643831542889791, 648514401022112, 653172842953777, 657806693297079, 662415777590172, 666999922303637,
  671558954847018, 676092703575316, 680600997795453, 685083667772700, 689540544737067, 693971460889654, 698376249408973, 702754744457225]
/-- Entries 128 to 191 of `sin_table` (sin_table.hpp 16-147), in units of `10^-15`. -/
def t2 : List Int := [
  707106781186547, 711432195745216, 715730825283819, 720002507961382, 724247082951467, 728464390448225, 732654271672413, 736816568877370,
  740951125354959, 745057785441466, 749136394523459, 753186799043612, 757208846506484, 761202385484262, 765167265622459, 769103337645580,
  773010453362737, 776888465673232, 780737228572094, 784556597155575, 788346427626606, 792106577300212, 795836904608883, 799537269107905,
  803207531480645, 806847553543799, 810457198252595, 814036329705948, 817584813151584, 821102514991105, 824589302785025, 828045045257756,
  831469612302545, 834862874986380, 838224705554838, 841554977436898, 844853565249707, 848120344803297, 851355193105265, 854557988365401,
  857728610000272, 860866938637767, 863972856121587, 867046245515693, 870086991108711, 873094978418290, 876070094195406, 879012226428633,
  881921264348355, 884797098430938, 887639620402854, 890448723244758, 893224301195515, 895966249756185, 898674465693954, 901348847046022,
  903989293123443, 906595704514915, 909167983090522, 911706032005430, 914209755703531, 916679059921043, 919113851690058, 921514039342042]
/-- Entries 192 to 255 of `sin_table` (sin_table.hpp 16-147), in units of `10^-15`. -/
def t3 : List Int := [
  923879532511287, 926210242138311, 928506080473215, 930766961078984, 932992798834739, 935183509938947, 937339011912575, 939459223602190,
  941544065183021, 943593458161960, 945607325380521, 947585591017741, 949528180593037, 951435020969008, 953306040354194, 955141168305771,
  956940335732209, 958703474895872, 960430519415566, 962121404269042, 963776065795440, 965394441697689, 966976471044852, 968522094274417,
  970031253194544, 971503890986252, 972939952205560, 974339382785576, 975702130038529, 977028142657754, 978317370719628, 979569765685441,
  980785280403230, 981963869109555, 983105487431216, 984210092386929, 985277642388941, 986308097244599, 987301418157858, 988257567730749,
  989176509964781, 990058210262297, 990902635427780, 991709753669100, 992479534598710, 993211949234795, 993906970002356, 994564570734255,
  995184726672197, 995767414467660, 996312612182778, 996820299291166, 997290456678690, 997723066644192, 998118112900149, 998475580573295,
  998795456205172, 999077727752645, 999322384588350, 999529417501093, 999698818696204, 999830581795823, 999924701839145, 999981175282601]
/-- Entries 256 to 319 of `sin_table` (sin_table.hpp 16-147), in units of `10^-15`. -/
def t4 : List Int := [
  1000000000000000, 999981175282601, 999924701839145, 999830581795823, 999698818696204, 999529417501093, 999322384588350, 999077727752645,
  998795456205172, 998475580573295, 998118112900149, 997723066644192, 997290456678690, 996820299291166, 996312612182778, 995767414467660,
  995184726672197, 994564570734255, 993906970002356, 993211949234795, 992479534598710, 991709753669100, 990902635427780, 990058210262297,
  989176509964781, 988257567730749, 987301418157858, 986308097244599, 985277642388941, 984210092386929, 983105487431216, 981963869109555,
  980785280403230, 979569765685441, 978317370719628, 977028142657754, 975702130038529, 974339382785576, 972939952205560, 971503890986252,
  970031253194544, 968522094274417, 966976471044852, 965394441697689, 963776065795440, 962121404269042, 960430519415566, 958703474895872,
  956940335732209, 955141168305771, 953306040354194, 951435020969008, 949528180593037, 947585591017741, 945607325380521, 943593458161960,
  941544065183021, 939459223602190, 937339011912575, 935183509938948, 932992798834739, 930766961078984, 928506080473216, 926210242138311]
/-- Entries 320 to 383 of `sin_table` (sin_table.hpp 16-147), in units of `10^-15`. -/
def t5 : List Int := [
  923879532511287, 921514039342042, 919113851690058, 916679059921043, 914209755703531, 911706032005430, 909167983090522, 906595704514915,
  903989293123443, 901348847046022, 898674465693954, 895966249756185, 893224301195515, 890448723244758, 887639620402854, 884797098430938,
  881921264348355, 879012226428634, 876070094195407, 873094978418290, 870086991108711, 867046245515693, 863972856121587, 860866938637767,
  857728610000272, 854557988365401, 851355193105265, 848120344803297, 844853565249707, 841554977436898, 838224705554838, 834862874986380,
  831469612302545, 828045045257756, 824589302785025, 821102514991105, 817584813151584, 814036329705949, 810457198252595, 806847553543799,
  803207531480645, 799537269107905, 795836904608884, 792106577300212, 788346427626606, 784556597155575, 780737228572095, 776888465673232,
  773010453362737, 769103337645580, 765167265622459, 761202385484262, 757208846506485, 753186799043613, 749136394523459, 745057785441466,
  740951125354959, 736816568877370, 732654271672413, 728464390448225, 724247082951467, 720002507961382, 715730825283819, 711432195745217]
/-- Entries 384 to 447 of `sin_table` (sin_table.hpp 16-147), in units of `10^-15`. -/
def t6 : List Int := [
  707106781186548, 702754744457225, 698376249408973, 693971460889654, 689540544737067, 685083667772700, 680600997795453, 676092703575316,
  671558954847019, 666999922303638, 662415777590172, 657806693297079, 653172842953777, 648514401022113, 643831542889791, 639124444863776,
  634393284163645, 629638238914927, 624859488142386, 620057211763289, 615231590580627, 610382806276310, 605511041404326, 600616479383869,
  595699304492433, 590759701858874, 585797857456439, 580813958095765, 575808191417845, 570780745886967, 565731810783613, 560661576197336,
  555570233019602, 550457972936605, 545324988422046, 540171472729893, 534997619887097, 529803624686295, 524589682678469, 519355990165590,
  514102744193222, 508830142543107, 503538383725718, 498227666972782, 492898192229784, 487550160148436, 482183772079123, 476799230063322,
  471396736825998, 465976495767966, 460538710958240, 455083587126344, 449611329654607, 444122144570429, 438616238538528, 433093818853152,
  427555093430282, 422000270799800, 416429560097637, 410843171057904, 405241314004990, 399624199845647, 393992040061048, 388345046698827]
/-- Entries 448 to 511 of `sin_table` (sin_table.hpp 16-147), in units of `10^-15`. -/
def t7 : List Int := [
  382683432365090, 377007410216418, 371317193951838, 365612997804774, 359895036534988, 354163525420490, 348418680249435, 342660717311994,
  336889853392220, 331106305759876, 325310292162263, 319502030816016, 313681740398891, 307849640041535, 302005949319228, 296150888243624,
  290284677254462, 284407537211272, 278519689385053, 272621355449949, 266712757474898, 260794117915276, 254865659604515, 248927605745720,
  242980179903264, 237023605994367, 231058108280671, 225083911359793, 219101240156870, 213110319916091, 207111376192219, 201104634842092,
  195090322016129, 189068664149806, 183039887955141, 177004220412149, 170961888760301, 164913120489970, 158858143333861, 152797185258444,
  146730474455362, 140658239332850, 134580708507126, 128498110793793, 122410675199216, 116318630911905, 110222207293883, 104121633872055,
  98017140329561, 91908956497133, 85797312344440, 79682437971430, 73564563599668, 67443919563664, 61320736302208, 55195244349690,
  49067674327418, 42938256934941, 36807222941359, 30674803176637, 24541228522912, 18406729905805, 12271538285720, 6135884649155]
/-- Entries 512 to 575 of `sin_table` (sin_table.hpp 16-147), in units of `10^-15`. -/
def t8 : List Int := [
  0, -6135884649155, -12271538285720, -18406729905805, -24541228522912, -30674803176637, -36807222941359, -42938256934941,
  -49067674327418, -55195244349690, -61320736302208, -67443919563664, -73564563599667, -79682437971430, -85797312344440, -91908956497133,
  -98017140329561, -104121633872054, -110222207293883, -116318630911904, -122410675199216, -128498110793793, -134580708507126, -140658239332849,
  -146730474455362, -152797185258443, -158858143333861, -164913120489970, -170961888760301, -177004220412149, -183039887955141, -189068664149806,
  -195090322016128, -201104634842092, -207111376192219, -213110319916091, -219101240156870, -225083911359793, -231058108280671, -237023605994367,
  -242980179903264, -248927605745720, -254865659604514, -260794117915276, -266712757474898, -272621355449949, -278519689385053, -284407537211272,
  -290284677254462, -296150888243624, -302005949319228, -307849640041535, -313681740398891, -319502030816016, -325310292162263, -331106305759876,
  -336889853392220, -342660717311994, -348418680249435, -354163525420490, -359895036534988, -365612997804774, -371317193951837, -377007410216418]
/-- Entries 576 to 639 of `sin_table` (sin_table.hpp 16-147), in units of `10^-15`. -/
def t9 : List Int := [
  -382683432365090, -388345046698826, -393992040061048, -399624199845647, -405241314004990, -410843171057904, -416429560097637, -422000270799800,
  -427555093430282, -433093818853152, -438616238538527, -444122144570429, -449611329654607, -455083587126344, -460538710958240, -465976495767966,
  -471396736825998, -476799230063322, -482183772079123, -487550160148436, -492898192229784, -498227666972782, -503538383725717, -508830142543107,
  -514102744193222, -519355990165590, -524589682678469, -529803624686295, -534997619887097, -540171472729893, -545324988422046, -550457972936605,
  -555570233019602, -560661576197336, -565731810783613, -570780745886967, -575808191417845, -580813958095764, -585797857456439, -590759701858874,
  -595699304492433, -600616479383869, -605511041404325, -610382806276309, -615231590580627, -620057211763289, -624859488142386, -629638238914927,
  -634393284163645, -639124444863776, -643831542889791, -648514401022112, -653172842953777, -657806693297079, -662415777590172, -666999922303637,
  -671558954847018, -676092703575316, -680600997795453, -685083667772700, -689540544737067, -693971460889654, -698376249408973, -702754744457225]
/-- Entries 640 to 703 of `sin_table` (sin_table.hpp 16-147), in units of `10^-15`. -/
def t10 : List Int := [
  -707106781186547, -711432195745216, -715730825283818, -720002507961382, -724247082951467, -728464390448225, -732654271672413, -736816568877370,
  -740951125354959, -745057785441466, -749136394523459, -753186799043612, -757208846506484, -761202385484262, -765167265622459, -769103337645579,
  -773010453362737, -776888465673233, -780737228572094, -784556597155575, -788346427626606, -792106577300212, -795836904608883, -799537269107905,
  -803207531480645, -806847553543799, -810457198252595, -814036329705948, -817584813151584, -821102514991105, -824589302785025, -828045045257755,
  -831469612302545, -834862874986380, -838224705554838, -841554977436899, -844853565249707, -848120344803297, -851355193105265, -854557988365401,
  -857728610000272, -860866938637767, -863972856121586, -867046245515693, -870086991108711, -873094978418290, -876070094195407, -879012226428634,
  -881921264348355, -884797098430938, -887639620402854, -890448723244758, -893224301195515, -895966249756185, -898674465693954, -901348847046022,
  -903989293123443, -906595704514915, -909167983090522, -911706032005430, -914209755703530, -916679059921043, -919113851690058, -921514039342042]
/-- Entries 704 to 767 of `sin_table` (sin_table.hpp 16-147), in units of `10^-15`. -/
def t11 : List Int := [
  -923879532511287, -926210242138311, -928506080473215, -930766961078984, -932992798834739, -935183509938948, -937339011912575, -939459223602190,
  -941544065183021, -943593458161960, -945607325380521, -947585591017741, -949528180593037, -951435020969008, -953306040354194, -955141168305771,
  -956940335732209, -958703474895871, -960430519415566, -962121404269042, -963776065795440, -965394441697689, -966976471044852, -968522094274417,
  -970031253194544, -971503890986252, -972939952205560, -974339382785576, -975702130038528, -977028142657754, -978317370719628, -979569765685441,
  -980785280403230, -981963869109555, -983105487431216, -984210092386929, -985277642388941, -986308097244599, -987301418157858, -988257567730749,
  -989176509964781, -990058210262297, -990902635427780, -991709753669100, -992479534598710, -993211949234795, -993906970002356, -994564570734255,
  -995184726672197, -995767414467660, -996312612182778, -996820299291166, -997290456678690, -997723066644192, -998118112900149, -998475580573295,
  -998795456205172, -999077727752645, -999322384588349, -999529417501093, -999698818696204, -999830581795823, -999924701839145, -999981175282601]
/-- Entries 768 to 831 of `sin_table` (sin_table.hpp 16-147), in units of `10^-15`. -/
def t12 : List Int := [
  -1000000000000000, -999981175282601, -999924701839145, -999830581795823, -999698818696204, -999529417501093, -999322384588350, -999077727752645,
  -998795456205172, -998475580573295, -998118112900149, -997723066644192, -997290456678690, -996820299291166, -996312612182778, -995767414467660,
  -995184726672197, -994564570734255, -993906970002356, -993211949234795, -992479534598710, -991709753669100, -990902635427780, -990058210262297,
  -989176509964781, -988257567730749, -987301418157858, -986308097244599, -985277642388941, -984210092386929, -983105487431216, -981963869109555,
  -980785280403230, -979569765685441, -978317370719628, -977028142657754, -975702130038529, -974339382785576, -972939952205560, -971503890986252,
  -970031253194544, -968522094274417, -966976471044852, -965394441697689, -963776065795440, -962121404269042, -960430519415566, -958703474895872,
  -956940335732209, -955141168305771, -953306040354194, -951435020969008, -949528180593037, -947585591017741, -945607325380521, -943593458161960,
  -941544065183021, -939459223602190, -937339011912575, -935183509938948, -932992798834739, -930766961078984, -928506080473216, -926210242138311]
/-- Entries 832 to 895 of `sin_table` (sin_table.hpp 16-147), in units of `10^-15`. -/
def t13 : List Int := [
  -923879532511287, -921514039342042, -919113851690058, -916679059921043, -914209755703531, -911706032005430, -909167983090522, -906595704514916,
  -903989293123443, -901348847046022, -898674465693954, -895966249756185, -893224301195515, -890448723244758, -887639620402854, -884797098430938,
  -881921264348355, -879012226428634, -876070094195407, -873094978418290, -870086991108711, -867046245515693, -863972856121587, -860866938637767,
  -857728610000272, -854557988365401, -851355193105265, -848120344803297, -844853565249707, -841554977436899, -838224705554838, -834862874986380,
  -831469612302546, -828045045257756, -824589302785025, -821102514991105, -817584813151584, -814036329705948, -810457198252595, -806847553543800,
  -803207531480645, -799537269107905, -795836904608884, -792106577300213, -788346427626606, -784556597155575, -780737228572095, -776888465673233,
  -773010453362737, -769103337645580, -765167265622459, -761202385484262, -757208846506485, -753186799043613, -749136394523460, -745057785441466,
  -740951125354959, -736816568877370, -732654271672413, -728464390448225, -724247082951467, -720002507961382, -715730825283819, -711432195745216]
/-- Entries 896 to 959 of `sin_table` (sin_table.hpp 16-147), in units of `10^-15`. -/
def t14 : List Int := [
  -707106781186548, -702754744457226, -698376249408973, -693971460889654, -689540544737067, -685083667772701, -680600997795453, -676092703575316,
  -671558954847019, -666999922303638, -662415777590172, -657806693297079, -653172842953777, -648514401022112, -643831542889791, -639124444863776,
  -634393284163646, -629638238914927, -624859488142386, -620057211763289, -615231590580627, -610382806276309, -605511041404326, -600616479383869,
  -595699304492433, -590759701858874, -585797857456439, -580813958095765, -575808191417845, -570780745886967, -565731810783614, -560661576197337,
  -555570233019602, -550457972936605, -545324988422047, -540171472729893, -534997619887097, -529803624686295, -524589682678469, -519355990165590,
  -514102744193222, -508830142543107, -503538383725718, -498227666972782, -492898192229784, -487550160148436, -482183772079123, -476799230063322,
  -471396736825998, -465976495767967, -460538710958240, -455083587126344, -449611329654607, -444122144570430, -438616238538528, -433093818853152,
  -427555093430283, -422000270799800, -416429560097637, -410843171057904, -405241314004990, -399624199845647, -393992040061048, -388345046698827]
/-- Entries 960 to 1023 of `sin_table` (sin_table.hpp 16-147), in units of `10^-15`. -/
def t15 : List Int := [
  -382683432365090, -377007410216418, -371317193951838, -365612997804774, -359895036534988, -354163525420490, -348418680249435, -342660717311995,
  -336889853392220, -331106305759877, -325310292162263, -319502030816015, -313681740398892, -307849640041535, -302005949319229, -296150888243624,
  -290284677254462, -284407537211272, -278519689385054, -272621355449949, -266712757474899, -260794117915276, -254865659604514, -248927605745720,
  -242980179903264, -237023605994368, -231058108280671, -225083911359793, -219101240156870, -213110319916092, -207111376192219, -201104634842092,
  -195090322016129, -189068664149806, -183039887955141, -177004220412149, -170961888760302, -164913120489970, -158858143333862, -152797185258444,
  -146730474455362, -140658239332849, -134580708507126, -128498110793794, -122410675199216, -116318630911905, -110222207293883, -104121633872055,
  -98017140329561, -91908956497133, -85797312344440, -79682437971431, -73564563599667, -67443919563664, -61320736302209, -55195244349690,
  -49067674327418, -42938256934941, -36807222941359, -30674803176637, -24541228522912, -18406729905805, -12271538285721, -6135884649154]
/-- Entries 1024 to 1024 of `sin_table` (sin_table.hpp 16-147), in units of `10^-15`. -/
def t16 : List Int := [
  0]

/-- `sin_table` (sin_table.hpp 16-147), in units of `10^-15`. -/
def table : List Int :=
  t0 ++ t1 ++ t2 ++ t3 ++ t4 ++ t5 ++ t6 ++ t7 ++ t8 ++ t9 ++ t10 ++ t11 ++ t12 ++ t13 ++ t14 ++ t15 ++ t16

end SinTable
end Verif
