/-!
# The decibel tables of `q/detail/db_table.hpp`

Generated from the source text: the decimal literals of the four tables, each multiplied by `10^15` (every literal
has exactly 15 decimals).
-/
namespace Verif
namespace DbTable

/-- Entries 0 to 63 of `db_table0` (db_table.hpp 18-148), in units of `10^-15`. -/
def a0 : List Int := [
  0, 67594813027612, 134667653179368, 201226520157918, 267279231159630, 332833426384349, 397896574338785, 462475976942755,
  526578774446983, 590211950170768, 653382335067363, 716096612124534, 778361320607393, 840182860150231, 901567494703762, 962521356343869,
  1023050448947626, 1083160651742130, 1142857722731375, 1202147302006155, 1261034914941781, 1319525975288113, 1377625788156258, 1435339552906021,
  1492672365938084, 1549629223394609, 1606215023771894, 1662434570448462, 1718292574131865, 1773793655227307, 1828942346131085, 1883743093451662,
  1938200260161128, 1992318127679627, 2046100897895252, 2099552695121789, 2152677567996590, 2205479491320758, 2257962367843735, 2310130029994299,
  2361986241559890, 2413534699316103, 2464779034608112, 2515722814885709, 2566369545193611, 2616722669618541, 2666785572694627, 2716561580768522,
  2766053963325629, 2815265934278765, 2864200653220512, 2912861226640496, 2961250709108754, 3009372104426323, 3057228366744129, 3104822401651222,
  3152157067233362, 3199235175102908, 3246059491400959, 3292632737772612, 3338957592316230, 3385036690507516, 3430872626099212, 3476467951997184]
/-- Entries 64 to 127 of `db_table0` (db_table.hpp 18-148), in units of `10^-15`. -/
def a1 : List Int := [
  3521825181113625, 3566946787198108, 3611835205647154, 3656492834292993, 3700922034172154, 3745125130274491, 3789104412273255, 3832862135236766,
  3876400520322257, 3919721755452410, 3962827995975108, 4005721365306892, 4048403955560608, 4090877828157718, 4133145014425700, 4175207516180988,
  4217067306297864, 4258726329263713, 4300186501721018, 4341449712996486, 4382517825617661, 4423392675817387, 4464076074026449, 4504569805354739,
  4544875630061251, 4584995284013223, 4624930479134729, 4664682903845000, 4704254223486758, 4743646080744846, 4782860096055405, 4821897868005846,
  4860760973725889, 4899450969269882, 4937969389990651, 4976317750905087, 5014497547051708, 5052510253840392, 5090357327394490, 5128040204885519,
  5165560304860626, 5202919027563012, 5240117755245489, 5277157852477358, 5314040666444765, 5350767527244709, 5387339748172871, 5423758626005386,
  5460025441274753, 5496141458540000, 5532107926651259, 5567926079008877, 5603597133817221, 5639122294333282, 5674502749110215, 5709739672235948,
  5744834223566958, 5779787548957359, 5814600780483384, 5849275036663395, 5883811422673515, 5918211030558991, 5952474939441394, 5986604215721735]
/-- Entries 128 to 191 of `db_table0` (db_table.hpp 18-148), in units of `10^-15`. -/
def a2 : List Int := [
  6020599913279624, 6054463073668524, 6088194726307235, 6121795888667670, 6155267566458992, 6188610753808252, 6221826433437542, 6254915576837790,
  6287879144439254, 6320718085778790, 6353433339663972, 6386025834334137, 6418496487618409, 6450846207090793, 6483075890222379, 6515186424530748,
  6547178687726607, 6579053547857754, 6610811863450392, 6642454483647886, 6673982248346987, 6705395988331604, 6736696525404158, 6767884672514583,
  6798961233887018, 6829927005144230, 6860782773429854, 6891529317528438, 6922167407983386, 6952697807212837, 6983121269623492, 7013438541722479,
  7043650362227249, 7073757462173590, 7103760565021754, 7133660386760779, 7163457636010998, 7193153014124823, 7222747215285779, 7252240926605893,
  7281634828221404, 7310929593386880, 7340125888567738, 7369224373531226, 7398225701435881, 7427130518919500, 7455939466185645, 7484653177088733,
  7513272279217707, 7541797393978349, 7570229136674232, 7598568116586363, 7626814937051519, 7654970195539326, 7683034483728086, 7711008387579382,
  7738892487411489, 7766687357971602, 7794393568506931, 7822011682834643, 7849542259410709, 7876985851397662, 7904343006731286, 7931614268186255]
/-- Entries 192 to 255 of `db_table0` (db_table.hpp 18-148), in units of `10^-15`. -/
def a3 : List Int := [
  7958800173440752, 7985901255140075, 8012918040959251, 8039851053664691, 8066700811174876, 8093467826620120, 8120152608401414, 8146755660248354,
  8173277481276214, 8199718566042119, 8226079404600382, 8252360482557007, 8278562281123358, 8304685277169030, 8330729943273923, 8356696747779537,
  8382586154839514, 8408398624469406, 8434134612595727, 8459794571104275, 8485378947887735, 8510888186892586, 8536322728165333, 8561683007898042,
  8586969458473234, 8612182508508115, 8637322582898165, 8662390102860106, 8687385485974250, 8712309146226231, 8737161494048145, 8761942936359114,
  8786653876605254, 8811294714799084, 8835865847558390, 8860367668144514, 8884800566500136, 8909164929286495, 8933461139920119, 8957689578609017,
  8981850622388377, 9005944645155791, 9029972017705948, 9053933107764884, 9077828280023752, 9101657896172128, 9125422314930846, 9149121892084420,
  9172756980512986, 9196327930223839, 9219835088382533, 9243278799343550, 9266659404680583, 9289977243216384, 9313232651052235, 9336425961597010,
  9359557505595854, 9382627611158490, 9405636603787141, 9428584806404080, 9451472539378836, 9474300120555020, 9497067865276808, 9519776086415087]
/-- Entries 256 to 319 of `db_table0` (db_table.hpp 18-148), in units of `10^-15`. -/
def a4 : List Int := [
  9542425094393248, 9565015197212647, 9587546700477731, 9610019907420860, 9632435118926777, 9654792633556786, 9677092747572617, 9699335754959970,
  9721521947451778, 9743651614551167, 9765725043554115, 9787742519571838, 9809704325552879, 9831610742304933, 9853462048516390, 9875258520777598,
  9897000433601880, 9918688059446279, 9940321668732034, 9961901529864821, 9983427909254733, 10004901071336004, 10026321278586515, 10047688791547033,
  10069003868840232, 10090266767189469, 10111477741437342, 10132637044564017, 10153744927705324, 10174801640170653, 10195807429460613, 10216762541284488,
  10237667219577487, 10258521706517783, 10279326242543336, 10300081066368538, 10320786415000642, 10341442523755999, 10362049626276111, 10382607954543479,
  10403117738897285, 10423579208048864, 10443992589097011, 10464358107543109, 10484675987306073, 10504946450737119, 10525169718634364, 10545346010257264,
  10565475543340874, 10585558534109943, 10605595197292848, 10625585746135380, 10645530392414353, 10665429346451070, 10685282817124623, 10705091011885060,
  10724854136766382, 10744572396399404, 10764245994024471, 10783875131504024, 10803460009335028, 10823000826661264, 10842497781285470, 10861951069681361]
/-- Entries 320 to 383 of `db_table0` (db_table.hpp 18-148), in units of `10^-15`. -/
def a5 : List Int := [
  10881360887005513, 10900727427109096, 10920050882549505, 10939331444601843, 10958569303270275, 10977764647299271, 10996917664184711, 11016028540184880,
  11035097460331333, 11054124608439636, 11073110167120017, 11092054317787859, 11110957240674113, 11129819114835595, 11148640118165144, 11167420427401694,
  11186160218140252, 11204859664841711, 11223518940842636, 11242138218364877, 11260717668525114, 11279257461344299, 11297757765756982, 11316218749620557,
  11334640579724390, 11353023421798865, 11371367440524335, 11389672799539966, 11407939661452495, 11426168187844912, 11444358539285011, 11462510875333898,
  11480625354554377, 11498702134519267, 11516741371819624, 11534743222072876, 11552707839930882, 11570635379087905, 11588525992288501, 11606379831335317,
  11624197047096844, 11641977789515037, 11659722207612905, 11677430449502001, 11695102662389839, 11712738992587234, 11730339585515569, 11747904585714007,
  11765434136846583, 11782928381709274, 11800387462236984, 11817811519510430, 11835200693763008, 11852555124387546, 11869874949943020, 11887160308161180,
  11904411335953139, 11921628169415861, 11938810943838616, 11955959793709352, 11973074852721018, 11990156253777808, 12007204129001360, 12024218609736888]
/-- Entries 384 to 447 of `db_table0` (db_table.hpp 18-148), in units of `10^-15`. -/
def a6 : List Int := [
  12041199826559248, 12058147909278958, 12075062986948147, 12091945187866454, 12108794639586860, 12125611468921482, 12142395801947291, 12159147764011792,
  12175867479738615, 12192555073033123, 12209210667087875, 12225834384388117, 12242426346717165, 12258986675161768, 12275515490117414, 12292012911293565,
  12308479057718877, 12324914047746347, 12341317999058415, 12357691028672013, 12374033252943597, 12390344787574076, 12406625747613763, 12422876247467201,
  12439096400898034, 12455286321033745, 12471446120370416, 12487575910777407, 12503675803502004, 12519745909174020, 12535786337810372, 12551797198819571,
  12567778601006230, 12583730652575483, 12599653461137377, 12615547133711249, 12631411776730015, 12647247496044471, 12663054396927508, 12678832584078334,
  12694582161626611, 12710303233136598, 12725995901611228, 12741660269496158, 12757296438683783, 12772904510517211, 12788484585794208, 12804036764771098,
  12819561147166640, 12835057832165862, 12850526918423855, 12865968504069558, 12881382686709479, 12896769563431402, 12912129230808061, 12927461784900764,
  12942767321263009, 12958045934944057, 12973297720492461, 12988522771959595, 13003721182903117, 13018893046390431, 13034038455002104, 13049157500835243]
/-- Entries 448 to 511 of `db_table0` (db_table.hpp 18-148), in units of `10^-15`. -/
def a7 : List Int := [
  13064250275506875, 13079316870157260, 13094357375453214, 13109371881591356, 13124360478301378, 13139323254849247, 13154260300040402, 13169171702222915,
  13184057549290621, 13198917928686242, 13213752927404446, 13228562631994922, 13243347128565402, 13258106502784665, 13272840839885516, 13287550224667740,
  13302234741501028, 13316894474327885, 13331529506666504, 13346139921613624, 13360725801847362, 13375287229630015, 13389824286810850, 13404337054828861,
  13418825614715505, 13433290047097424, 13447730432199123, 13462146849845659, 13476539379465269, 13490908100092010, 13505253090368356, 13519574428547784,
  13533872192497331, 13548146459700138, 13562397307257974, 13576624811893719, 13590829049953857, 13605010097410934, 13619168029865987, 13633302922550968,
  13647414850331142, 13661503887707466, 13675570108818949, 13689613587444994, 13703634397007711, 13717632610574238, 13731608300859007, 13745561540226026,
  13759492400691114, 13773400953924138, 13787287271251227, 13801151423656961, 13814993481786555, 13828813515948010, 13842611596114267, 13856387791925320,
  13870142172690334, 13883874807389736, 13897585764677288, 13911275112882146, 13924942920010910, 13938589253749640, 13952214181465878, 13965817770210636]
/-- Entries 512 to 575 of `db_table0` (db_table.hpp 18-148), in units of `10^-15`. -/
def a8 : List Int := [
  13979400086720377, 13992961197418980, 14006501168419698, 14020020065527074, 14033517954238874, 14046994899747990, 14060450966944313, 14073886220416640,
  14087300724454499, 14100694543050016, 14114067739899745, 14127420378406473, 14140752521681037, 14154064232544110, 14167355573527978, 14180626606878295,
  14193877394555837, 14207107998238248, 14220318479321744, 14233508898922832, 14246679317880007, 14259829796755437, 14272960395836630, 14286071175138096,
  14299162194402983, 14312233513104724, 14325285190448653, 14338317285373613, 14351329856553544, 14364322962399093, 14377296661059162, 14390251010422475,
  14403186068119139, 14416101891522171, 14428998537749029, 14441876063663130, 14454734525875352, 14467573980745518, 14480394484383901, 14493196092652667,
  14505978861167359, 14518742845298336, 14531488100172211, 14544214680673285, 14556922641444958, 14569612036891144, 14582282921177667, 14594935348233642,
  14607569371752859, 14620185045195148, 14632782421787740, 14645361554526602, 14657922496177790, 14670465299278767, 14682990016139732, 14695496698844909,
  14707985399253875, 14720456169002819, 14732909059505854, 14745344121956261, 14757761407327770, 14770160966375805, 14782542849638737, 14794907107439112]
/-- Entries 576 to 639 of `db_table0` (db_table.hpp 18-148), in units of `10^-15`. -/
def a9 : List Int := [
  14807253789884879, 14819582946870607, 14831894628078707, 14844188882980621, 14856465760838013, 14868725310703963, 14880967581424137, 14893192621637958,
  14905400479779761, 14917591204079944, 14929764842566120, 14941921443064246, 14954061053199743, 14966183720398636, 14978289491888638, 14990378414700285,
  15002450535668002, 15014505901431214, 15026544558435415, 15038566552933251, 15050571930985569, 15062560738462507, 15074533021044507, 15086488824223389,
  15098428193303377, 15110351173402126, 15122257809451751, 15134148146199841, 15146022228210470, 15157880099865190, 15169721805364043, 15181547388726530,
  15193356893792609, 15205150364223663, 15216927843503465, 15228689374939147, 15240435001662156, 15252164766629196, 15263878712623173, 15275576882254139,
  15287259317960206, 15298926062008489, 15310577156496008, 15322212643350607, 15333832564331860, 15345436961031961, 15357025874876634, 15368599347126001,
  15380157418875477, 15391700131056645, 15403227524438115, 15414739639626397, 15426236517066762, 15437718197044088, 15449184719683704, 15460636124952241,
  15472072452658461, 15483493742454089, 15494900033834643, 15506291366140241, 15517667778556433, 15529029310114986, 15540375999694710, 15551707886022253]
/-- Entries 640 to 703 of `db_table0` (db_table.hpp 18-148), in units of `10^-15`. -/
def a10 : List Int := [
  15563025007672874, 15574327403071253, 15585615110492270, 15596888168061774, 15608146613757356, 15619390485409131, 15630619820700485, 15641834657168838,
  15653035032206402, 15664220983060916, 15675392546836411, 15686549760493921, 15697692660852240, 15708821284588639, 15719935668239593, 15731035848201500,
  15742121860731402, 15753193741947683, 15764251527830790, 15775295254223924, 15786324956833740, 15797340671231039, 15808342432851461, 15819330276996164,
  15830304238832502, 15841264353394708, 15852210655584557, 15863143180172038, 15874061961796013, 15884967034964879, 15895858434057221, 15906736193322462,
  15917600346881503, 15928450928727386, 15939287972725902, 15950111512616251, 15960921582011657, 15971718214400003, 15982501443144447, 15993271301484040,
  16004027822534358, 16014771039288078, 16025500984615629, 16036217691265755, 16046921191866140, 16057611518923995, 16068288704826656, 16078952781842165,
  16089603782119855, 16100241737690943, 16110866680469094, 16121478642251002, 16132077654716966, 16142663749431449, 16153236957843639, 16163797311288029,
  16174344840984951, 16184879578041134, 16195401553450278, 16205910798093566, 16216407342740236, 16226891218048102, 16237362454564110, 16247821082724851]
/-- Entries 704 to 767 of `db_table0` (db_table.hpp 18-148), in units of `10^-15`. -/
def a11 : List Int := [
  16258267132857110, 16268700635178384, 16279121619797408, 16289530116714673, 16299926155822963, 16310309766907835, 16320680979648163, 16331039823616639,
  16341386328280265, 16351720523000878, 16362042437035623, 16372352099537480, 16382649539555732, 16392934786036481, 16403207867823106, 16413468813656770,
  16423717652176911, 16433954411921686, 16444179121328489, 16454391808734389, 16464592502376636, 16474781230393095, 16484958020822734, 16495122901606084,
  16505275900585698, 16515417045506595, 16525546364016741, 16535663883667478, 16545769631913988, 16555863636115728, 16565945923536887, 16576016521346823,
  16586075456620499, 16596122756338918, 16606158447389564, 16616182556566837, 16626195110572471, 16636196136015961, 16646185659415003, 16656163707195898,
  16666130305693979, 16676085481154029, 16686029259730692, 16695961667488895, 16705882730404248, 16715792474363443, 16725690925164685, 16735578108518069,
  16745454050046003, 16755318775283591, 16765172309679027, 16775014678594005, 16784845907304092, 16794666020999141, 16804475044783651, 16814273003677162,
  16824059922614655, 16833835826446904, 16843600739940889, 16853354687780129, 16863097694565095, 16872829784813561, 16882550982960986, 16892261313360873]
/-- Entries 768 to 831 of `db_table0` (db_table.hpp 18-148), in units of `10^-15`. -/
def a12 : List Int := [
  16901960800285135, 16911649467924473, 16921327340388721, 16930994441707206, 16940650795829132, 16950296426623893, 16959931357881469, 16969555613312750,
  16979169216549899, 16988772191146701, 16998364560578892, 17007946348244538, 17017517577464332, 17027078271481983, 17036628453464505, 17046168146502598,
  17055697373610958, 17065216157728610, 17074724521719261, 17084222488371598, 17093710080399639, 17103187320443055, 17112654231067481, 17122110834764857,
  17131557153953739, 17140993210979612, 17150419028115220, 17159834627560876, 17169240031444765, 17178635261823285, 17188020340681319, 17197395289932572,
  17206760131419873, 17216114886915467, 17225459578121335, 17234794226669486, 17244118854122259, 17253433481972632, 17262738131644500, 17272032824492989,
  17281317581804739, 17290592424798199, 17299857374623922, 17309112452364850, 17318357679036605, 17327593075587771, 17336818662900178, 17346034461789198,
  17355240493004011, 17364436777227890, 17373623335078488, 17382800187108099, 17391967353803960, 17401124855588485, 17410272712819587, 17419410945790911,
  17428539574732120, 17437658619809159, 17446768101124533, 17455868038717558, 17464958452564634, 17474039362579504, 17483110788613519, 17492172750455907]
/-- Entries 832 to 895 of `db_table0` (db_table.hpp 18-148), in units of `10^-15`. -/
def a13 : List Int := [
  17501225267834002, 17510268360413541, 17519302047798892, 17528326349533323, 17537341285099249, 17546346873918484, 17555343135352498, 17564330088702668,
  17573307753210507, 17582276148057939, 17591235292367532, 17600185205202731, 17609125905568124, 17618057412409669, 17626979744614943, 17635892921013369,
  17644796960376471, 17653691881418094, 17662577702794660, 17671454443105389, 17680322120892530, 17689180754641601, 17698030362781626, 17706870963685347,
  17715702575669464, 17724525216994866, 17733338905866859, 17742143660435367, 17750939498795194, 17759726438986220, 17768504498993632, 17777273696748139,
  17786034050126204, 17794785576950257, 17803528294988901, 17812262221957141, 17820987375516609, 17829703773275746, 17838411432790057, 17847110371562277,
  17855800607042632, 17864482156629006, 17873155037667171, 17881819267450997, 17890474863222643, 17899121842172786, 17907760221440803, 17916390018114996,
  17925011249232764, 17933623931780843, 17942228082695483, 17950823718862654, 17959410857118240, 17967989514248242, 17976559706988976, 17985121452027265,
  17993674766000641, 18002219665497524, 18010756167057430, 18019284287171160, 18027804042280984, 18036315448780837, 18044818523016509, 18053313281285838]
/-- Entries 896 to 959 of `db_table0` (db_table.hpp 18-148), in units of `10^-15`. -/
def a14 : List Int := [
  18061799739838872, 18070277914878094, 18078747822558583, 18087209478988196, 18095662900227772, 18104108102291292, 18112545101146075, 18120973912712962,
  18129394552866486, 18137807037435046, 18146211382201109, 18154607602901365, 18162995715226916, 18171375734823453, 18179747677291413, 18188111558186183,
  18196467393018242, 18204815197253357, 18213154986312745, 18221486775573251, 18229810580367499, 18238126415984087, 18246434297667740, 18254734240619477,
  18263026259996789, 18271310370913788, 18279586588441394, 18287854927607476, 18296115403397039, 18304368030752364, 18312612824573190, 18320849799716864,
  18329078970998502, 18337300353191157, 18345513961025972, 18353719809192334, 18361917912338036, 18370108285069445, 18378290941951640, 18386465897508568,
  18394633166223219, 18402792762537764, 18410944700853701, 18419088995532032, 18427225660893384, 18435354711218192, 18443476160746826, 18451590023679746,
  18459696314177656, 18467795046361655, 18475886234313368, 18483969892075116, 18492046033650041, 18500114673002265, 18508175824057030, 18516229500700845,
  18524275716781627, 18532314486108838, 18540345822453645, 18548369739549038, 18556386251089997, 18564395370733600, 18572397112099196, 18580391488768523]
/-- Entries 960 to 1023 of `db_table0` (db_table.hpp 18-148), in units of `10^-15`. -/
def a15 : List Int := [
  18588378514285854, 18596358202158132, 18604330565855104, 18612295618809473, 18620253374417000, 18628203846036687, 18636147046990871, 18644082990565376,
  18652011690009640, 18659933158536855, 18667847409324093, 18675754455512443, 18683654310207135, 18691546986477668, 18699432497357957, 18707310855846444,
  18715182074906235, 18723046167465224, 18730903146416221, 18738753024617090, 18746595814890853, 18754431530025833, 18762260182775780, 18770081785859986,
  18777896351963406, 18785703893736798, 18793504423796833, 18801297954726223, 18809084499073833, 18816864069354814, 18824636678050723, 18832402337609633,
  18840161060446267, 18847912858942095, 18855657745445484, 18863395732271787, 18871126831703478, 18878851055990257, 18886568417349181, 18894278927964763,
  18901982599989104, 18909679445541990, 18917369476711027, 18925052705551739, 18932729144087684, 18940398804310579, 18948061698180389, 18955717837625464,
  18963367234542634, 18971009900797327, 18978645848223682, 18986275088624641, 18993897633772086, 19001513495406925, 19009122685239216, 19016725214948266,
  19024321096182742, 19031910340560771, 19039492959670056, 19047068965067986, 19054638368281726, 19062201180808337, 19069757414114868, 19077307079638469]
/-- `db_table0` (db_table.hpp 18-148), in units of `10^-15`. -/
def table0 : List Int := a0 ++ a1 ++ a2 ++ a3 ++ a4 ++ a5 ++ a6 ++ a7 ++ a8 ++ a9 ++ a10 ++ a11 ++ a12 ++ a13 ++ a14 ++ a15

/-- Entries 0 to 63 of `db_table1` (db_table.hpp 150-280), in units of `10^-15`. -/
def b0 : List Int := [
  0, 6020599913279624, 9542425094393248, 12041199826559248, 13979400086720377, 15563025007672874, 16901960800285135, 18061799739838872,
  19084850188786497, 20000000000000000, 20827853703164504, 21583624920952499, 22278867046136735, 22922560713564760, 23521825181113627, 24082399653118497,
  24608978427565479, 25105450102066122, 25575072019056577, 26020599913279625, 26444385894678387, 26848453616444125, 27234556720351858, 27604224834232120,
  27958800173440753, 28299466959416360, 28627275283179749, 28943160626844385, 29247959957979120, 29542425094393248, 29827233876685455, 30102999566398122,
  30370278797557752, 30629578340845104, 30881360887005513, 31126050015345747, 31364034481339900, 31595671932336202, 31821292140529984, 32041199826559243,
  32255677134394709, 32464985807958008, 32669369111591728, 32869053529723750, 33064250275506872, 33255156633631479, 33441957158714352, 33624824747511745,
  33803921600570270, 33979400086720375, 34151403521958727, 34320066872695982, 34485517392015780, 34647875196459374, 34807253789884875, 34963760540124007,
  35117497113449829, 35268559871258745, 35417040232842886, 35563025007672870, 35706596700215343, 35847833789965080, 35986810989071635, 36123599479677743]
/-- Entries 64 to 127 of `db_table1` (db_table.hpp 150-280), in units of `10^-15`. -/
def b1 : List Int := [
  36258267132857107, 36390878710837377, 36521496054016531, 36650178254124725, 36776981814745106, 36901960800285138, 37025166974381506, 37146649928625372,
  37266457202409114, 37384634394619525, 37501225267834002, 37616271845615827, 37729814503449639, 37841892053809609, 37952541825808829, 38061799739838868,
  38169700377572994, 38276277047674334, 38381561847521482, 38485585721237634, 38588378514285850, 38689969024871353, 38790385052372372, 38889653443003375,
  38987800132898258, 39084850188786497, 39180827846421870, 39275756546911104, 39369658971078699, 39462557071993970, 39554472105776959, 39645424660791370,
  39735434685324897, 39824521513849895, 39912703891950997, 40000000000000000, 40086427475652854, 40172003435238352, 40256744494103444, 40340666785975607,
  40423785981398765, 40506117305295405, 40587675553704194, 40668475109738999, 40748529958812476, 40827853703164500, 40906459575733152, 40984360453403632,
  41061568869668392, 41138097026729454, 41213956807072236, 41289159784538370, 41363717234923236, 41437640146122511, 41510939227850614, 41583624920952495,
  41655707406329007, 41727196613494968, 41798102228787961, 41868433703244705, 41938200260161125, 42007410902351261, 42076074419119138, 42144199392957368]
/-- Entries 128 to 191 of `db_table1` (db_table.hpp 150-280), in units of `10^-15`. -/
def b2 : List Int := [
  42211794205984972, 42278867046136739, 42345425913115292, 42411478624117002, 42477032819341716, 42542095967296156, 42606675369900124, 42670778167404350,
  42734411343128130, 42797581728024731, 42860296005081899, 42922560713564764, 42984382253107597, 43045766887661124, 43106720749301239, 43167249841904997,
  43227360044699495, 43287057115688739, 43346346694963522, 43405234307899150, 43463725368245477, 43521825181113627, 43579538945863384, 43636871758895452,
  43693828616351979, 43750414416729264, 43806633963405829, 43862491967089234, 43917993048184670, 43973141739088454, 44027942486409025, 44082399653118493,
  44136517520636993, 44190300290852619, 44243752088079155, 44296876960953959, 44349678884278127, 44402161760801100, 44454329422951666, 44506185634517259,
  44557734092273471, 44608978427565482, 44659922207843074, 44710568938150971, 44760922062575908, 44810984965651997, 44860760973725888, 44910253356283000,
  44959465327236138, 45008400046177883, 45057060619597863, 45105450102066122, 45153571497383695, 45201427759701495, 45249021794608588, 45296356460190729,
  45343434568060275, 45390258884358332, 45436832130729982, 45483156985273602, 45529236083464887, 45575072019056577, 45620667344954555, 45666024574070995]
/-- Entries 192 to 255 of `db_table1` (db_table.hpp 150-280), in units of `10^-15`. -/
def b3 : List Int := [
  45711146180155481, 45756034598604522, 45800692227250359, 45845121427129520, 45889324523231856, 45933303805230622, 45977061528194135, 46020599913279625,
  46063921148409783, 46107027388932480, 46149920758264258, 46192603348517977, 46235077221115084, 46277344407383069, 46319406909138358, 46361266699255232,
  46402925722221084, 46444385894678383, 46485649105953854, 46526717218575023, 46567592068774751, 46608275466983820, 46648769198312110, 46689075023018617,
  46729194676970593, 46769129872092094, 46808882296802366, 46848453616444125, 46887845473702214, 46927059489012777, 46966097260963210, 47004960366683257,
  47043650362227254, 47082168782948017, 47120517143862450, 47158696940009079, 47196709646797757, 47234556720351861, 47272239597842891, 47309759697817995,
  47347118420520374, 47384317148202861, 47421357245434727, 47458240059402137, 47494966920202081, 47531539141130239, 47567958018962749, 47604224834232120,
  47640340851497371, 47676307319608625, 47712125471966246, 47747796526774586, 47783321687290652, 47818702142067586, 47853939065193316, 47889033616524330,
  47923986941914727, 47958800173440750, 47993474429620761, 48028010815630886, 48062410423516361, 48096674332398763, 48130803608679102, 48164799306236993]
/-- Entries 256 to 319 of `db_table1` (db_table.hpp 150-280), in units of `10^-15`. -/
def b4 : List Int := [
  48198662466625890, 48232394119264598, 48265995281625038, 48299466959416357, 48332810146765617, 48366025826394903, 48399114969795164, 48432078537396627,
  48464917478736155, 48497632732621341, 48530225227291510, 48562695880575781, 48595045600048159, 48627275283179749, 48659385817488115, 48691378080683975,
  48723252940815122, 48755011256407755, 48786653876605257, 48818181641304356, 48849595381288971, 48880895918361524, 48912084065471944, 48943160626844389,
  48974126398101596, 49004982166387222, 49035728710485806, 49066366800940749, 49096897200170204, 49127320662580864, 49157637934679848, 49187849755184622,
  49217956855130957, 49247959957979120, 49277859779718149, 49307657028968364, 49337352407082193, 49366946608243147, 49396440319563261, 49425834221178775,
  49455128986344249, 49484325281525102, 49513423766488593, 49542425094393252, 49571329911876873, 49600138859143009, 49628852570046092, 49657471672175078,
  49685996786935718, 49714428529631604, 49742767509543732, 49771014330008889, 49799169588496696, 49827233876685455, 49855207780536752, 49883091880368859,
  49910886750928967, 49938592961464295, 49966211075792010, 49993741652368080, 50021185244355031, 50048542399688650, 50075813661143620, 50102999566398118]
/-- Entries 320 to 383 of `db_table1` (db_table.hpp 150-280), in units of `10^-15`. -/
def b5 : List Int := [
  50130100648097439, 50157117433916618, 50184050446622059, 50210900204132244, 50237667219577489, 50264352001358780, 50290955053205721, 50317476874233584,
  50343917958999491, 50370278797557752, 50396559875514377, 50422761674080725, 50448884670126397, 50474929336231291, 50500896140736906, 50526785547796884,
  50552598017426774, 50578334005553096, 50603993964061644, 50629578340845100, 50655087579849948, 50680522121122699, 50705882400855408, 50731168851430596,
  50756381901465481, 50781521975855533, 50806589495817470, 50831584878931615, 50856508539183594, 50881360887005513, 50906142329316481, 50930853269562625,
  50955494107756451, 50980065240515756, 51004567061101881, 51028999959457508, 51053364322243866, 51077660532877488, 51101888971566389, 51126050015345747,
  51150144038113154, 51174171410663320, 51198132500722252, 51222027672981120, 51245857289129489, 51269621707888213, 51293321285041785, 51316956373470354,
  51340527323181206, 51364034481339900, 51387478192300918, 51410858797637943, 51434176636173760, 51457432044009607, 51480625354554377, 51503756898553220,
  51526827004115859, 51549835996744513, 51572784199361443, 51595671932336202, 51618499513512390, 51641267258234180, 51663975479372453, 51686624487350620]
/-- Entries 384 to 447 of `db_table1` (db_table.hpp 150-280), in units of `10^-15`. -/
def b6 : List Int := [
  51709214590170014, 51731746093435106, 51754219300378224, 51776634511884147, 51798992026514156, 51821292140529984, 51843535147917336, 51865721340409145,
  51887851007508530, 51909924436511481, 51931941912529204, 51953903718510247, 51975810135262307, 51997661441473753, 52019457913734968, 52041199826559250,
  52062887452403643, 52084521061689401, 52106100922822193, 52127627302212105, 52149100464293376, 52170520671543883, 52191888184504400, 52213203261797602,
  52234466160146837, 52255677134394709, 52276836437521382, 52297944320662694, 52319001033128025, 52340006822417983, 52360961934241850, 52381866612534857,
  52402721099475151, 52423525635500702, 52444280459325903, 52464985807958008, 52485641916713362, 52506249019233479, 52526807347500849, 52547317131854648,
  52567778601006232, 52588191982054376, 52608557500500481, 52628875380263445, 52649145843694491, 52669369111591735, 52689545403214630, 52709674936298242,
  52729757927067311, 52749794590250218, 52769785139092747, 52789729785371719, 52809628739408438, 52829482210081991, 52849290404842428, 52869053529723750,
  52888771789356774, 52908445386981839, 52928074524461394, 52947659402292395, 52967200219618633, 52986697174242835, 53006150462638729, 53025560279962882]
/-- Entries 448 to 511 of `db_table1` (db_table.hpp 150-280), in units of `10^-15`. -/
def b7 : List Int := [
  53044926820066465, 53064250275506872, 53083530837559209, 53102768696227642, 53121964040256636, 53141117057142075, 53160227933142252, 53179296853288697,
  53198324001397012, 53217309560077382, 53236253710745217, 53255156633631479, 53274018507792960, 53292839511122516, 53311619820359070, 53330359611097613,
  53349059057799082, 53367718333799999, 53386337611322247, 53404917061482486, 53423456854301669, 53441957158714352, 53460418142577922, 53478839972681762,
  53497222814756228, 53515566833481707, 53533872192497327, 53552139054409864, 53570367580802277, 53588557932242374, 53606710268291266, 53624824747511745,
  53642901527476639, 53660940764776996, 53678942615030245, 53696907232888250, 53714834772045272, 53732725385245871, 53750579224292693, 53768396440054211,
  53786177182472407, 53803921600570277, 53821629842459373, 53839302055347204, 53856938385544602, 53874538978472941, 53892103978671379, 53909633529803955,
  53927127774666637, 53944586855194352, 53962010912467797, 53979400086720375, 53996754517344918, 54014074342900386, 54031359701118546, 54048610728910511,
  54065827562373229, 54083010336795986, 54100159186666723, 54117274245678388, 54134355646735173, 54151403521958727, 54168418002694253, 54185399219516619]
/-- Entries 512 to 575 of `db_table1` (db_table.hpp 150-280), in units of `10^-15`. -/
def b8 : List Int := [
  54202347302236326, 54219262379905516, 54236144580823826, 54252994032544223, 54269810861878852, 54286595194904663, 54303347156969153, 54320066872695982,
  54336754465990495, 54353410060045242, 54370033777345483, 54386625739674528, 54403186068119140, 54419714883074789, 54436212304250937, 54452678450676245,
  54469113440703715, 54485517392015780, 54501890421629383, 54518232645900966, 54534544180531448, 54550825140571121, 54567075640424569, 54583295793855406,
  54599485713991108, 54615645513327784, 54631775303734777, 54647875196459374, 54663945302131381, 54679985730767740, 54695996591776947, 54711977993963600,
  54727930045532851, 54743852854094747, 54759746526668621, 54775611169687380, 54791446889001840, 54807253789884875, 54823031977035697, 54838781554583981,
  54854502626093968, 54870195294568596, 54885859662453527, 54901495831641149, 54917103903474576, 54932683978751569, 54948236157728459, 54963760540124007,
  54979257225123234, 54994726311381221, 55010167897026925, 55025582079666847, 55040968956388774, 55056328623765431, 55071661177858132, 55086966714220374,
  55102245327901429, 55117497113449829, 55132722164916963, 55147920575860489, 55163092439347793, 55178237847959473, 55193356893792611, 55208449668464240]
/-- Entries 576 to 639 of `db_table1` (db_table.hpp 150-280), in units of `10^-15`. -/
def b9 : List Int := [
  55223516263114625, 55238556768410582, 55253571274548719, 55268559871258745, 55283522647806613, 55298459692997774, 55313371095180280, 55328256942247990,
  55343117321643611, 55357952320361818, 55372762024952287, 55387546521522772, 55402305895742032, 55417040232842886, 55431749617625108, 55446434134458400,
  55461093867285250, 55475728899623874, 55490339314570996, 55504925194804727, 55519486622587380, 55534023679768218, 55548536447786233, 55563025007672870,
  55577489440054791, 55591929825156484, 55606346242803028, 55620738772422634, 55635107493049382, 55649452483325717, 55663773821505146, 55678071585454703,
  55692345852657503, 55706596700215343, 55720824204851084, 55735028442911229, 55749209490368301, 55763367422823357, 55777502315508336, 55791614243288514,
  55805703280664829, 55819769501776321, 55833812980402364, 55847833789965080, 55861832003531603, 55875807693816377, 55889760933183396, 55903691793648484,
  55917600346881507, 55931486664208592, 55945350816614329, 55959192874743920, 55973012908905382, 55986810989071635, 56000587184882690, 56014341565647705,
  56028074200347106, 56041785157634656, 56055474505839513, 56069142312968275, 56082788646707009, 56096413574423245, 56110017163168003, 56123599479677743]
/-- Entries 640 to 703 of `db_table1` (db_table.hpp 150-280), in units of `10^-15`. -/
def b10 : List Int := [
  56137160590376347, 56150700561377064, 56164219458484439, 56177717347196243, 56191194292705347, 56204650359901684, 56218085613374015, 56231500117411869,
  56244893936007387, 56258267132857114, 56271619771363845, 56284951914638405, 56298263625501477, 56311554966485346, 56324825999835667, 56338076787513209,
  56351307391195611, 56364517872279116, 56377708291880197, 56390878710837377, 56404029189712801, 56417159788794002, 56430270568095466, 56443361587360350,
  56456432906062091, 56469484583406022, 56482516678330981, 56495529249510916, 56508522355356462, 56521496054016531, 56534450403379843, 56547385461076509,
  56560301284479536, 56573197930706399, 56586075456620499, 56598933918832721, 56611773373702889, 56624593877341269, 56637395485610035, 56650178254124725,
  56662942238255702, 56675687493129573, 56688414073630653, 56701122034402324, 56713811429848505, 56726482314135033, 56739134741191009, 56751768764710221,
  56764384438152511, 56776981814745106, 56789560947483970, 56802121889135158, 56814664692236136, 56827189409097095, 56839696091802274, 56852184792211240,
  56864655561960191, 56877108452463219, 56889543514913626, 56901960800285138, 56914360359333173, 56926742242596106, 56939106500396477, 56951453182842243]
/-- Entries 704 to 767 of `db_table1` (db_table.hpp 150-280), in units of `10^-15`. -/
def b11 : List Int := [
  56963782339827979, 56976094021036076, 56988388275937993, 57000665153795381, 57012924703661334, 57025166974381506, 57037392014595326, 57049599872737133,
  57061790597037316, 57073964235523491, 57086120836021614, 57098260446157106, 57110383113356001, 57122488884846007, 57134577807657649, 57146649928625372,
  57158705294388582, 57170743951392780, 57182765945890623, 57194771323942945, 57206760131419870, 57218732414001877, 57230688217180756, 57242627586260745,
  57254550566359498, 57266457202409114, 57278347539157210, 57290221621167838, 57302079492822557, 57313921198321410, 57325746781683897, 57337556286749980,
  57349349757181031, 57361127236460831, 57372888767896512, 57384634394619525, 57396364159586561, 57408078105580536, 57419776275211511, 57431458710917568,
  57443125454965852, 57454776549453371, 57466412036307979, 57478031957289232, 57489636353989333, 57501225267834002, 57512798740083369, 57524356811832845,
  57535899524014013, 57547426917395477, 57558939032583766, 57570435910024131, 57581917590001453, 57593384112641068, 57604835517909606, 57616271845615827,
  57627693135411455, 57639099426792015, 57650490759097607, 57661867171513791, 57673228703072354, 57684575392652079, 57695907278979625, 57707224400630245]
/-- Entries 768 to 831 of `db_table1` (db_table.hpp 150-280), in units of `10^-15`. -/
def b12 : List Int := [
  57718526796028620, 57729814503449639, 57741087561019135, 57752346006714717, 57763589878366503, 57774819213657850, 57786034050126204, 57797234425163772,
  57808420376018283, 57819591939793781, 57830749153451286, 57841892053809609, 57853020677546006, 57864135061196961, 57875235241158869, 57886321253688770,
  57897393134905059, 57908450920788155, 57919494647181295, 57930524349791106, 57941540064188402, 57952541825808829, 57963529669953530, 57974503631789872,
  57985463746352075, 57996410048541932, 58007342573129407, 58018261354753378, 58029166427922249, 58040057827014593, 58050935586279820, 58061799739838875,
  58072650321684748, 58083487365683268, 58094310905573614, 58105120974969026, 58115917607357375, 58126700836101818, 58137470694441404, 58148227215491715,
  58158970432245447, 58169700377573001, 58180417084223123, 58191120584823508, 58201810911881360, 58212488097784025, 58223152174799530, 58233803175077227,
  58244441130648312, 58255066073426462, 58265678035208374, 58276277047674334, 58286863142388810, 58297436350801007, 58307996704245397, 58318544233942319,
  58329078970998502, 58339600946407650, 58350110191050931, 58360606735697608, 58371090611005471, 58381561847521475, 58392020475682216, 58402466525814482]
/-- Entries 832 to 895 of `db_table1` (db_table.hpp 150-280), in units of `10^-15`. -/
def b13 : List Int := [
  58412900028135752, 58423321012754776, 58433729509672041, 58444125548780328, 58454509159865196, 58464880372605528, 58475239216574010, 58485585721237634,
  58495919915958240, 58506241829992987, 58516551492494848, 58526848932513104, 58537134178993846, 58547407260780474, 58557668206614139, 58567917045134273,
  58578153804879058, 58588378514285857, 58598591201691761, 58608791895334001, 58618980623350453, 58629157413780099, 58639322294563456, 58649475293543063,
  58659616438463964, 58669745756974109, 58679863276624850, 58689969024871360, 58700063029073100, 58710145316494255, 58720215914304191, 58730274849577867,
  58740322149296283, 58750357840346936, 58760381949524209, 58770394503529843, 58780395528973330, 58790385052372372, 58800363100153270, 58810329698651344,
  58820284874111394, 58830228652688064, 58840161060446263, 58850082123361609, 58859991867320815, 58869890318122053, 58879777501475431, 58889653443003375,
  58899518168240952, 58909371702636399, 58919214071551373, 58929045300261464, 58938865413956513, 58948674437741019, 58958472396634527, 58968259315572020,
  58978035219404276, 58987800132898258, 58997554080737501, 59007297087522460, 59017029177770929, 59026750375918354, 59036460706318238, 59046160193242507]
/-- Entries 896 to 959 of `db_table1` (db_table.hpp 150-280), in units of `10^-15`. -/
def b14 : List Int := [
  59055848860881845, 59065526733346090, 59075193834664574, 59084850188786497, 59094495819581255, 59104130750838834, 59113755006270111, 59123368609507267,
  59132971584104070, 59142563953536261, 59152145741201906, 59161716970421701, 59171277664439344, 59180827846421870, 59190367539459963, 59199896766568322,
  59209415550685982, 59218923914676623, 59228421881328970, 59237909473357007, 59247386713400417, 59256853624024842, 59266310227722229, 59275756546911104,
  59285192603936984, 59294618421072585, 59304034020518237, 59313439424402134, 59322834654780650, 59332219733638681, 59341594682889948, 59350959524377238,
  59360314279872838, 59369658971078707, 59378993619626854, 59388318247079624, 59397632874930004, 59406937524601872, 59416232217450357, 59425516974762104,
  59434791817755567, 59444056767581294, 59453311845322219, 59462557071993977, 59471792468545139, 59481018055857547, 59490233854746570, 59499439885961380,
  59508636170185262, 59517822728035853, 59526999580065471, 59536166746761324, 59545324248545853, 59554472105776952, 59563610338748276, 59572738967689489,
  59581858012766524, 59590967494081902, 59600067431674930, 59609157845521999, 59618238755536872, 59627310181570891, 59636372143413269, 59645424660791370]
/-- Entries 960 to 1023 of `db_table1` (db_table.hpp 150-280), in units of `10^-15`. -/
def b15 : List Int := [
  59654467753370909, 59663501440756264, 59672525742490691, 59681540678056621, 59690546266875856, 59699542528309870, 59708529481660037, 59717507146167875,
  59726475541015304, 59735434685324897, 59744384598160096, 59753325298525496, 59762256805367038, 59771179137572318, 59780092313970741, 59788996353333836,
  59797891274375459, 59806777095752032, 59815653836062751, 59824521513849895, 59833380147598973, 59842229755738991, 59851070356642708, 59859901968626829,
  59868724609952231, 59877538298824220, 59886343053392736, 59895138891752566, 59903925831943582, 59912703891951004, 59921473089705508, 59930233443083566,
  59938984969907622, 59947727687946262, 59956461614914510, 59965186768473977, 59973903166233114, 59982610825747422, 59991309764519649, 60000000000000000,
  60008681549586377, 60017354430624536, 60026018660408369, 60034674256180011, 60043321235130158, 60051959614398172, 60060589411072357, 60069210642190136,
  60077823324738205, 60086427475652854, 60095023111820026, 60103610250075612, 60112188907205606, 60120759099946348, 60129320844984633, 60137874158958013,
  60146419058454896, 60154955560014798, 60163483680128529, 60172003435238352, 60180514841738209, 60189017915973878, 60197512674243200, 60205999132796244]
/-- `db_table1` (db_table.hpp 150-280), in units of `10^-15`. -/
def table1 : List Int := b0 ++ b1 ++ b2 ++ b3 ++ b4 ++ b5 ++ b6 ++ b7 ++ b8 ++ b9 ++ b10 ++ b11 ++ b12 ++ b13 ++ b14 ++ b15

/-- Entries 0 to 63 of `db_table2` (db_table.hpp 282-412), in units of `10^-15`. -/
def c0 : List Int := [
  60205999132796244, 66226599046075862, 69748424227189489, 72247198959355487, 74185399219516611, 75769024140469114, 77107959933081375, 78267798872635112,
  79290849321582741, 80205999132796236, 81033852835960744, 81789624053748739, 82484866178932975, 83128559846361000, 83727824313909863, 84288398785914737,
  84814977560361712, 85311449234862366, 85781071151852814, 86226599046075862, 86650385027474627, 87054452749240369, 87440555853148098, 87810223967028364,
  88164799306236986, 88505466092212600, 88833274415975993, 89149159759640625, 89453959090775356, 89748424227189489, 90033233009481691, 90308998699194362,
  90576277930353996, 90835577473641337, 91087360019801750, 91332049148141991, 91570033614136136, 91801671065132439, 92027291273326227, 92247198959355487,
  92461676267190938, 92670984940754252, 92875368244387971, 93075052662519994, 93270249408303116, 93461155766427723, 93647956291510596, 93830823880307989,
  94009920733366513, 94185399219516611, 94357402654754964, 94526066005492225, 94691516524812016, 94853874329255618, 95013252922681119, 95169759672920250,
  95323496246246066, 95474559004054981, 95623039365639130, 95769024140469114, 95912595833011579, 96053832922761316, 96192810121867879, 96329598612473987]
/-- Entries 64 to 127 of `db_table2` (db_table.hpp 282-412), in units of `10^-15`. -/
def c1 : List Int := [
  96464266265653350, 96596877843633621, 96727495186812774, 96856177386920962, 96982980947541350, 97107959933081375, 97231166107177742, 97352649061421616,
  97472456335205351, 97590633527415761, 97707224400630238, 97822270978412064, 97935813636245882, 98047891186605852, 98158540958605073, 98267798872635112,
  98375699510369245, 98482276180470564, 98587560980317733, 98691584854033877, 98794377647082086, 98895968157667596, 98996384185168608, 99095652575799619,
  99193799265694494, 99290849321582741, 99386826979218114, 99481755679707348, 99575658103874943, 99668556204790221, 99760471238573203, 99851423793587614,
  99941433818121141, 100030520646646139, 100118703024747248, 100205999132796236, 100292426608449091, 100378002568034589, 100462743626899695, 100546665918771851,
  100629785114195002, 100712116438091641, 100793674686500424, 100874474242535243, 100954529091608705, 101033852835960744, 101112458708529388, 101190359586199875,
  101267568002464628, 101344096159525691, 101419955939868473, 101495158917334606, 101569716367719479, 101643639278918755, 101716938360646850, 101789624053748739,
  101861706539125251, 101933195746291204, 102004101361584190, 102074432836040941, 102144199392957375, 102213410035147504, 102282073551915374, 102350198525753612]
/-- Entries 128 to 191 of `db_table2` (db_table.hpp 282-412), in units of `10^-15`. -/
def c2 : List Int := [
  102417793338781223, 102484866178932975, 102551425045911515, 102617477756913246, 102683031952137952, 102748095100092399, 102812674502696368, 102876777300200587,
  102940410475924367, 103003580860820975, 103066295137878129, 103128559846361000, 103190381385903848, 103251766020457367, 103312719882097483, 103373248974701241,
  103433359177495731, 103493056248484976, 103552345827759765, 103611233440695386, 103669724501041713, 103727824313909863, 103785538078659627, 103842870891691689,
  103899827749148216, 103956413549525507, 104012633096202066, 104068491099885478, 104123992180980906, 104179140871884698, 104233941619205268, 104288398785914737,
  104342516653433236, 104396299423648870, 104449751220875399, 104502876093750189, 104555678017074371, 104608160893597329, 104660328555747896, 104712184767313502,
  104763733225069714, 104814977560361712, 104865921340639318, 104916568070947221, 104966921195372151, 105016984098448233, 105066760106522125, 105116252489079244,
  105165464460032382, 105214399178974119, 105263059752394099, 105311449234862366, 105359570630179917, 105407426892497739, 105455020927404831, 105502355592986973,
  105549433700856511, 105596258017154568, 105642831263526219, 105689156118069846, 105735235216261131, 105781071151852814, 105826666477750791, 105872023706867239]
/-- Entries 192 to 255 of `db_table2` (db_table.hpp 282-412), in units of `10^-15`. -/
def c3 : List Int := [
  105917145312951703, 105962033731400766, 106006691360046602, 106051120559925764, 106095323656028100, 106139302938026873, 106183060660990378, 106226599046075862,
  106269920281206026, 106313026521728716, 106355919891060495, 106398602481314214, 106441076353911313, 106483343540179305, 106525406041934602, 106567265832051476,
  106608924855017321, 106650385027474627, 106691648238750091, 106732716351371266, 106773591201570994, 106814274599780049, 106854768331108346, 106895074155814868,
  106935193809766830, 106975129004888331, 107014881429598603, 107054452749240369, 107093844606498450, 107133058621809013, 107172096393759446, 107210959499479500,
  107249649495023490, 107288167915744253, 107326516276658708, 107364696072805316, 107402708779594008, 107440555853148098, 107478238730639134, 107515758830614232,
  107553117553316611, 107590316280999104, 107627356378230971, 107664239192198380, 107700966052998325, 107737538273926475, 107773957151758992, 107810223967028364,
  107846339984293593, 107882306452404876, 107918124604762482, 107953795659570829, 107989320820086888, 108024701274863816, 108059938197989553, 108095032749320566,
  108129986074710956, 108164799306236986, 108199473562416998, 108234009948427129, 108268409556312605, 108302673465194999, 108336802741475339, 108370798439033237]
/-- Entries 256 to 319 of `db_table2` (db_table.hpp 282-412), in units of `10^-15`. -/
def c4 : List Int := [
  108404661599422127, 108438393252060834, 108471994414421275, 108505466092212600, 108538809279561846, 108572024959191140, 108605114102591386, 108638077670192871,
  108670916611532391, 108703631865417577, 108736224360087746, 108768695013372025, 108801044732844403, 108833274415975993, 108865384950284351, 108897377213480212,
  108929252073611366, 108961010389203992, 108992653009401494, 109024180774100600, 109055594514085215, 109086895051157754, 109118083198268195, 109149159759640625,
  109180125530897826, 109210981299183473, 109241727843282050, 109272365933736992, 109302896332966441, 109333319795377108, 109363637067476077, 109393848887980866,
  109423955987927201, 109453959090775356, 109483858912514393, 109513656161764601, 109543351539878429, 109572945741039391, 109602439452359505, 109631833353975011,
  109661128119140471, 109690324414321339, 109719422899284837, 109748424227189489, 109777329044673110, 109806137991939252, 109834851702842343, 109863470804971314,
  109891995919731954, 109920427662427841, 109948766642339976, 109977013462805132, 110005168721292932, 110033233009481691, 110061206913332995, 110089091013165103,
  110116885883725217, 110144592094260531, 110172210208588254, 110199740785164323, 110227184377151275, 110254541532484893, 110281812793939849, 110308998699194362]
/-- Entries 320 to 383 of `db_table2` (db_table.hpp 282-412), in units of `10^-15`. -/
def c5 : List Int := [
  110336099780893676, 110363116566712861, 110390049579418289, 110416899336928481, 110443666352373725, 110470351134155024, 110496954186001958, 110523476007029814,
  110549917091795734, 110576277930353996, 110602559008310607, 110628760806876954, 110654883802922640, 110680928469027521, 110706895273533149, 110732784680593127,
  110758597150223011, 110784333138349339, 110809993096857880, 110835577473641337, 110861086712646198, 110886521253918943, 110911881533651652, 110937167984226846,
  110962381034261725, 110987521108651777, 111012588628613713, 111037584011727859, 111062507671979844, 111087360019801750, 111112141462112731, 111136852402358869,
  111161493240552701, 111186064373312007, 111210566193898117, 111234999092253744, 111259363455040102, 111283659665673724, 111307888104362632, 111332049148141991,
  111356143170909405, 111380170543459542, 111404131633518489, 111428026805777364, 111451856421925726, 111475620840684456, 111499320417838021, 111522955506266598,
  111546526455977443, 111570033614136136, 111593477325097155, 111616857930434193, 111640175768969982, 111663431176805844, 111686624487350613, 111709756031349471,
  111732826136912109, 111755835129540756, 111778783332157701, 111801671065132439, 111824498646308626, 111847266391030416, 111869974612168690, 111892623620146864]
/-- Entries 384 to 447 of `db_table2` (db_table.hpp 282-412), in units of `10^-15`. -/
def c6 : List Int := [
  111915213722966257, 111937745226231328, 111960218433174461, 111982633644680391, 112004991159310393, 112027291273326227, 112049534280713573, 112071720473205389,
  112093850140304767, 112115923569307725, 112137941045325448, 112159902851306470, 112181809268058544, 112203660574270003, 112225457046531204, 112247198959355487,
  112268886585199880, 112290520194485651, 112312100055618430, 112333626435008341, 112355099597089620, 112376519804340120, 112397887317300643, 112419202394593839,
  112440465292943074, 112461676267190938, 112482835570317619, 112503943453458930, 112525000165924268, 112546005955214227, 112566961067038108, 112587865745331101,
  112608720232271381, 112629524768296946, 112650279592122160, 112670984940754252, 112691641049509599, 112712248152029716, 112732806480297086, 112753316264650891,
  112773777733802461, 112794191114850619, 112814556633296718, 112834874513059674, 112855144976490735, 112875368244387971, 112895544536010860, 112915674069094493,
  112935757059863548, 112955793723046455, 112975784271888983, 112995728918167956, 113015627872204675, 113035481342878228, 113055289537638672, 113075052662519994,
  113094770922153018, 113114444519778075, 113134073657257630, 113153658535088638, 113173199352414869, 113192696307039071, 113212149595434965, 113231559412759125]
/-- Entries 448 to 511 of `db_table2` (db_table.hpp 282-412), in units of `10^-15`. -/
def c7 : List Int := [
  113250925952862701, 113270249408303116, 113289529970355446, 113308767829023878, 113327963173052879, 113347116189938333, 113366227065938489, 113385295986084941,
  113404323134193248, 113423308692873633, 113442252843541468, 113461155766427723, 113480017640589210, 113498838643918759, 113517618953155306, 113536358743893857,
  113555058190595318, 113573717466596236, 113592336744118484, 113610916194278730, 113629455987097913, 113647956291510596, 113666417275374158, 113684839105478005,
  113703221947552464, 113721565966277950, 113739871325293578, 113758138187206100, 113776366713598520, 113794557065038617, 113812709401087503, 113830823880307989,
  113848900660272875, 113866939897573218, 113884941747826488, 113902906365684487, 113920833904841516, 113938724518042108, 113956578357088915, 113974395572850455,
  113992176315268651, 114009920733366513, 114027628975255610, 114045301188143441, 114062937518340846, 114080538111269178, 114098103111467623, 114115632662600191,
  114133126907462881, 114150585987990581, 114168010045264040, 114185399219516611, 114202753650141148, 114220073475696623, 114237358833914783, 114254609861706754,
  114271826695169466, 114289009469592230, 114306158319462966, 114323273378474624, 114340354779531424, 114357402654754964, 114374417135490489, 114391398352312862]
/-- Entries 512 to 575 of `db_table2` (db_table.hpp 282-412), in units of `10^-15`. -/
def c8 : List Int := [
  114408346435032570, 114425261512701752, 114442143713620069, 114458993165340459, 114475809994675075, 114492594327700900, 114509346289765404, 114526066005492225,
  114542753598786732, 114559409192841471, 114576032910141720, 114592624872470765, 114609185200915377, 114625714015871011, 114642211437047180, 114658677583472496,
  114675112573499959, 114691516524812016, 114707889554425606, 114724231778697202, 114740543313327677, 114756824273367371, 114773074773220799, 114789294926651650,
  114805484846787351, 114821644646124028, 114837774436531021, 114853874329255618, 114869944434927632, 114885984863563976, 114901995724573169, 114917977126759837,
  114933929178329080, 114949851986890991, 114965745659464858, 114981610302483617, 114997446021798083, 115013252922681119, 115029031109831948, 115044780687380225,
  115060501758890211, 115076194427364840, 115091858795249763, 115107494964437379, 115123103036270820, 115138683111547806, 115154235290524710, 115169759672920250,
  115185256357919471, 115200725444177451, 115216167029823154, 115231581212463084, 115246968089185003, 115262327756561675, 115277660310654369, 115292965847016617,
  115308244460697665, 115323496246246066, 115338721297713192, 115353919708656733, 115369091572144043, 115384236980755702, 115399356026588848, 115414448801260491]
/-- Entries 576 to 639 of `db_table2` (db_table.hpp 282-412), in units of `10^-15`. -/
def c9 : List Int := [
  115429515395910869, 115444555901206826, 115459570407344955, 115474559004054981, 115489521780602843, 115504458825794018, 115519370227976523, 115534256075044226,
  115549116454439854, 115563951453158055, 115578761157748531, 115593545654319016, 115608305028538268, 115623039365639130, 115637748750421352, 115652433267254636,
  115667093000081493, 115681728032420096, 115696338447367225, 115710924327600964, 115725485755383616, 115740022812564462, 115754535580582456, 115769024140469114,
  115783488572851041, 115797928957952735, 115812345375599250, 115826737905218877, 115841106625845626, 115855451616121968, 115869772954301382, 115884070718250939,
  115898344985453747, 115912595833011579, 115926823337647335, 115941027575707466, 115955208623164538, 115969366555619601, 115983501448304565, 115997613376084757,
  116011702413461080, 116025768634572557, 116039812113198607, 116053832922761316, 116067831136327854, 116081806826612620, 116095760065979633, 116109690926444728,
  116123599479677750, 116137485797004828, 116151349949410573, 116165192007540156, 116179012041701611, 116192810121867879, 116206586317678926, 116220340698443948,
  116234073333143343, 116247784290430900, 116261473638635749, 116275141445764518, 116288787779503252, 116302412707219474, 116316016295964246, 116329598612473987]
/-- Entries 640 to 703 of `db_table2` (db_table.hpp 282-412), in units of `10^-15`. -/
def c10 : List Int := [
  116343159723172590, 116356699694173301, 116370218591280675, 116383716479992486, 116397193425501598, 116410649492697914, 116424084746170251, 116437499250208106,
  116450893068803623, 116464266265653350, 116477618904160082, 116490951047434649, 116504262758297713, 116517554099281583, 116530825132631890, 116544075920309439,
  116557306523991855, 116570517005075359, 116583707424676447, 116596877843633621, 116610028322509038, 116623158921590232, 116636269700891702, 116649360720156579,
  116662432038858327, 116675483716202265, 116688515811127218, 116701528382307146, 116714521488152698, 116727495186812774, 116740449536176087, 116753384593872752,
  116766300417275772, 116779197063502636, 116792074589416742, 116804933051628964, 116817772506499125, 116830593010137505, 116843394618406279, 116856177386920962,
  116868941371051932, 116881686625925809, 116894413206426890, 116907121167198568, 116919810562644756, 116932481446931277, 116945133873987260, 116957767897506457,
  116970383570948755, 116982980947541350, 116995560080280200, 117008121021931402, 117020663825032386, 117033188541893338, 117045695224598518, 117058183925007469,
  117070654694756428, 117083107585259469, 117095542647709863, 117107959933081375, 117120359492129410, 117132741375392357, 117145105633192713, 117157452315638494]
/-- Entries 704 to 767 of `db_table2` (db_table.hpp 282-412), in units of `10^-15`. -/
def c11 : List Int := [
  117169781472624223, 117182093153832326, 117194387408734229, 117206664286591604, 117218923836457577, 117231166107177742, 117243391147391577, 117255599005533369,
  117267789729833552, 117279963368319727, 117292119968817858, 117304259578953349, 117316382246152244, 117328488017642258, 117340576940453900, 117352649061421616,
  117364704427184819, 117376743084189030, 117388765078686845, 117400770456739167, 117412759264216106, 117424731546798114, 117436687349976992, 117448626719056989,
  117460549699155735, 117472456335205351, 117484346671953460, 117496220753964081, 117508078625618793, 117519920331117646, 117531745914480140, 117543555419546223,
  117555348889977267, 117567126369257068, 117578887900692749, 117590633527415761, 117602363292382805, 117614077238376780, 117625775408007755, 117637457843713818,
  117649124587762088, 117660775682249607, 117672411169104208, 117684031090085469, 117695635486785562, 117707224400630238, 117718797872879605, 117730355944629096,
  117741898656810250, 117753426050191734, 117764938165380002, 117776435042820381, 117787916722797689, 117799383245437298, 117810834650705857, 117822270978412064,
  117833692268207685, 117845098559588251, 117856489891893844, 117867866304310041, 117879227835868591, 117890574525448315, 117901906411775869, 117913223533426489]
/-- Entries 768 to 831 of `db_table2` (db_table.hpp 282-412), in units of `10^-15`. -/
def c12 : List Int := [
  117924525928824849, 117935813636245882, 117947086693815379, 117958345139510953, 117969589011162725, 117980818346454086, 117992033182922441, 118003233557960016,
  118014419508814527, 118025591072590018, 118036748286247530, 118047891186605852, 118059019810342249, 118070134193993198, 118081234373955098, 118092320386485014,
  118103392267701281, 118114450053584392, 118125493779977532, 118136523482587350, 118147539196984638, 118158540958605073, 118169528802749767, 118180502764586095,
  118191462879148318, 118202409181338169, 118213341705925643, 118224260487549628, 118235165560718485, 118246056959810829, 118256934719076071, 118267798872635112,
  118278649454480984, 118289486498479505, 118300310038369858, 118311120107765277, 118321916740153611, 118332699968898055, 118343469827237655, 118354226348287966,
  118364969565041690, 118375699510369245, 118386416217019359, 118397119717619745, 118407810044677603, 118418487230580268, 118429151307595774, 118439802307873464,
  118450440263444548, 118461065206222699, 118471677168004618, 118482276180470564, 118492862275185047, 118503435483597244, 118513995837041634, 118524543366738556,
  118535078103794746, 118545600079203894, 118556109323847181, 118566605868493852, 118577089743801722, 118587560980317733, 118598019608478467, 118608465658610726]
/-- Entries 832 to 895 of `db_table2` (db_table.hpp 282-412), in units of `10^-15`. -/
def c13 : List Int := [
  118618899160931988, 118629320145551006, 118639728642468270, 118650124681576571, 118660508292661433, 118670879505401757, 118681238349370247, 118691584854033877,
  118701919048754476, 118712240962789224, 118722550625291078, 118732848065309341, 118743133311790089, 118753406393576711, 118763667339410389, 118773916177930516,
  118784152937675302, 118794377647082086, 118804590334487997, 118814791028130244, 118824979756146703, 118835156546576343, 118845321427359693, 118855474426339299,
  118865615571260207, 118875744889770360, 118885862409421094, 118895968157667596, 118906062161869329, 118916144449290485, 118926215047100428, 118936273982374104,
  118946321282092526, 118956356973143173, 118966381082320453, 118976393636326080, 118986394661769580, 118996384185168608, 119006362232949513, 119016328831447581,
  119026284006907645, 119036227785484300, 119046160193242500, 119056081256157853, 119065991000117052, 119075889450918297, 119085776634271681, 119095652575799619,
  119105517301037196, 119115370835432643, 119125213204347617, 119135044433057701, 119144864546752757, 119154673570537256, 119164471529430770, 119174258448368263,
  119184034352200513, 119193799265694494, 119203553213533723, 119213296220318696, 119223028310567173, 119232749508714591, 119242459839114474, 119252159326038750]
/-- Entries 896 to 959 of `db_table2` (db_table.hpp 282-412), in units of `10^-15`. -/
def c14 : List Int := [
  119261847993678089, 119271525866142326, 119281192967460811, 119290849321582741, 119300494952377505, 119310129883635071, 119319754139066347, 119329367742303504,
  119338970716900292, 119348563086332504, 119358144873998128, 119367716103217930, 119377276797235581, 119386826979218114, 119396366672256207, 119405895899364566,
  119415414683482211, 119424923047472873, 119434421014125206, 119443908606153258, 119453385846196653, 119462852756821093, 119472309360518466, 119481755679707348,
  119491191736733228, 119500617553868821, 119510033153314481, 119519438557198384, 119528833787576886, 119538218866434931, 119547593815686184, 119556958657173482,
  119566313412669075, 119575658103874943, 119584992752423091, 119594317379875861, 119603632007726247, 119612936657398109, 119622231350246594, 119631516107558355,
  119640790950551803, 119650055900377538, 119659310978118455, 119668556204790221, 119677791601341369, 119687017188653783, 119696232987542800, 119705439018757630,
  119714635302981506, 119723821860832089, 119732998712861715, 119742165879557575, 119751323381342090, 119760471238573203, 119769609471544513, 119778738100485725,
  119787857145562782, 119796966626878145, 119806066564471166, 119815156978318242, 119824237888333101, 119833309314367128, 119842371276209505, 119851423793587614]
/-- Entries 960 to 1023 of `db_table2` (db_table.hpp 282-412), in units of `10^-15`. -/
def c15 : List Int := [
  119860466886167131, 119869500573552500, 119878524875286928, 119887539810852843, 119896545399672078, 119905541661106113, 119914528614456259, 119923506278964112,
  119932474673811541, 119941433818121141, 119950383730956332, 119959324431321733, 119968255938163267, 119977178270368540, 119986091446766977, 119994995486130080,
  120003890407171696, 120012776228548276, 120021652968858987, 120030520646646139, 120039379280395210, 120048228888535235, 120057069489438959, 120065901101423066,
  120074723742748475, 120083537431620471, 120092342186188972, 120101138024548803, 120109924964739832, 120118703024747248, 120127472222501751, 120136232575879816,
  120144984102703859, 120153726820742506, 120162460747710753, 120171185901270206, 120179902299029351, 120188609958543665, 120197308897315892, 120205999132796236,
  120214680682382621, 120223353563420773, 120232017793204605, 120240673388976248, 120249320367926401, 120257958747194408, 120266588543868593, 120275209774986379,
  120283822457534455, 120292426608449091, 120301022244616263, 120309609382871855, 120318188040001843, 120326758232742591, 120335319977780870, 120343873291754250,
  120352418191251132, 120360954692811049, 120369482812924758, 120378002568034589, 120386513974534438, 120395017048770114, 120403511807039436, 120411998265592487]
/-- `db_table2` (db_table.hpp 282-412), in units of `10^-15`. -/
def table2 : List Int := c0 ++ c1 ++ c2 ++ c3 ++ c4 ++ c5 ++ c6 ++ c7 ++ c8 ++ c9 ++ c10 ++ c11 ++ c12 ++ c13 ++ c14 ++ c15

/-- Entries 0 to 63 of `inv_db_table` (db_table.hpp 414-567), in units of `10^-15`. -/
def i0 : List Int := [
  1000000000000000, 1011579454259899, 1023292992280754, 1035142166679344, 1047128548050900, 1059253725177289, 1071519305237606, 1083926914021204,
  1096478196143185, 1109174815262401, 1122018454301963, 1135010815672315, 1148153621496883, 1161448613840343, 1174897554939530, 1188502227437018,
  1202264434617413, 1216186000646368, 1230268770812382, 1244514611771385, 1258925411794167, 1273503081016662, 1288249551693134, 1303166778452299,
  1318256738556407, 1333521432163324, 1348962882591654, 1364583136588924, 1380384264602885, 1396368361055938, 1412537544622754, 1428893958511103,
  1445439770745927, 1462177174456718, 1479108388168207, 1496235656094433, 1513561248436208, 1531087461682030, 1548816618912481, 1566751070108149,
  1584893192461114, 1603245390690041, 1621810097358930, 1640589773199539, 1659586907437561, 1678804018122560, 1698243652461744, 1717908387157588,
  1737800828749375, 1757923613958693, 1778279410038923, 1798870915128788, 1819700858609983, 1840772001468956, 1862087136662868, 1883649089489801,
  1905460717963247, 1927524913190936, 1949844599758045, 1972422736114854, 1995262314968880, 2018366363681561, 2041737944669529, 2065380155810530]
/-- Entries 64 to 127 of `inv_db_table` (db_table.hpp 414-567), in units of `10^-15`. -/
def i1 : List Int := [
  2089296130854040, 2113489039836647, 2137962089502232, 2162718523727020, 2187761623949553, 2213094709605638, 2238721138568339, 2264644307593060,
  2290867652767773, 2317394649968478, 2344228815319922, 2371373705661655, 2398832919019490, 2426610095082415, 2454708915685031, 2483133105295571,
  2511886431509580, 2540972705549305, 2570395782768863, 2600159563165272, 2630267991895382, 2660725059798810, 2691534803926916, 2722701308077912,
  2754228703338166, 2786121168629770, 2818382931264454, 2851018267503910, 2884031503126606, 2917427014001167, 2951209226666386, 2985382618917960,
  3019951720402016, 3054921113215513, 3090295432513591, 3126079367123955, 3162277660168380, 3198895109691398, 3235936569296283, 3273406948788382,
  3311311214825911, 3349654391578277, 3388441561392026, 3427677865464504, 3467368504525317, 3507518739525680, 3548133892335755, 3589219346450053,
  3630780547701014, 3672823004980846, 3715352290971725, 3758374042884441, 3801893963205611, 3845917820453535, 3890451449942806, 3935500754557774,
  3981071705534972, 4027170343254591, 4073802778041127, 4120975190973302, 4168693834703354, 4216965034285822, 4265795188015927, 4315190768277652]
/-- Entries 128 to 191 of `inv_db_table` (db_table.hpp 414-567), in units of `10^-15`. -/
def i2 : List Int := [
  4365158322401660, 4415704473533125, 4466835921509632, 4518559443749224, 4570881896148751, 4623810213992603, 4677351412871983, 4731512589614805,
  4786300923226384, 4841723675840994, 4897788193684462, 4954501908047901, 5011872336272722, 5069907082747043, 5128613839913648, 5188000389289611,
  5248074602497725, 5308844442309884, 5370317963702527, 5432503314924332, 5495408738576246, 5559042572704036, 5623413251903491, 5688529308438414,
  5754399373371569, 5821032177708714, 5888436553555890, 5956621435290105, 6025595860743578, 6095368972401692, 6165950018614822, 6237348354824193,
  6309573444801933, 6382634861905488, 6456542290346556, 6531305526474723, 6606934480075959, 6683439175686146, 6760829753919817, 6839116472814292,
  6918309709189364, 6998419960022734, 7079457843841379, 7161434102129020, 7244359600749901, 7328245331389041, 7413102413009175, 7498942093324558,
  7585775750291837, 7673614893618190, 7762471166286917, 7852356346100718, 7943282347242816, 8035261221856173, 8128305161640993, 8222426499470712,
  8317637711026711, 8413951416451951, 8511380382023766, 8609937521846007, 8709635899560805, 8810488730080140, 8912509381337454, 9015711376059569]
/-- Entries 192 to 255 of `inv_db_table` (db_table.hpp 414-567), in units of `10^-15`. -/
def i3 : List Int := [
  9120108393559097, 9225714271547631, 9332543007969910, 9440608762859233, 9549925860214358, 9660508789898133, 9772372209558107, 9885530946569387,
  10000000000000000, 10115794542598982, 10232929922807541, 10351421666793437, 10471285480508996, 10592537251772887, 10715193052376065, 10839269140212034,
  10964781961431852, 11091748152624008, 11220184543019636, 11350108156723149, 11481536214968829, 11614486138403427, 11748975549395297, 11885022274370183,
  12022644346174131, 12161860006463678, 12302687708123818, 12445146117713850, 12589254117941675, 12735030810166617, 12882495516931343, 13031667784522993,
  13182567385564074, 13335214321633240, 13489628825916533, 13645831365889245, 13803842646028846, 13963683610559377, 14125375446227540, 14288939585111029,
  14454397707459272, 14621771744567184, 14791083881682072, 14962356560944336, 15135612484362079, 15310874616820303, 15488166189124811, 15667510701081493,
  15848931924611133, 16032453906900418, 16218100973589298, 16405897731995395, 16595869074375607, 16788040181225607, 16982436524617444, 17179083871575884,
  17378008287493753, 17579236139586932, 17782794100389228, 17988709151287875, 18197008586099834, 18407720014689556, 18620871366628677, 18836490894898002]
/-- Entries 256 to 319 of `inv_db_table` (db_table.hpp 414-567), in units of `10^-15`. -/
def i4 : List Int := [
  19054607179632473, 19275249131909355, 19498445997580454, 19724227361148536, 19952623149688797, 20183663636815606, 20417379446695296, 20653801558105290,
  20892961308540396, 21134890398366466, 21379620895022324, 21627185237270201, 21877616239495531, 22130947096056374, 22387211385683401, 22646443075930595,
  22908676527677734, 23173946499684785, 23442288153199225, 23713737056616552, 23988329190194900, 24266100950824157, 24547089156850298, 24831331052955704,
  25118864315095795, 25409727055493050, 25703957827688633, 26001595631652723, 26302679918953814, 26607250597988099, 26915348039269155, 27227013080779127,
  27542287033381662, 27861211686297708, 28183829312644534, 28510182675039097, 28840315031266059, 29174270140011675, 29512092266663856, 29853826189179603,
  30199517204020161, 30549211132155140, 30902954325135905, 31260793671239558, 31622776601683793, 31988951096913972, 32359365692962825, 32734069487883815,
  33113112148259113, 33496543915782759, 33884415613920254, 34276778654645028, 34673685045253166, 35075187395256798, 35481338923357548, 35892193464500515,
  36307805477010142, 36728230049808460, 37153522909717260, 37583740428844415, 38018939632056124, 38459178204535355, 38904514499428068, 39355007545577742]
/-- Entries 320 to 383 of `inv_db_table` (db_table.hpp 414-567), in units of `10^-15`. -/
def i5 : List Int := [
  39810717055349734, 40271703432545905, 40738027780411279, 41209751909733022, 41686938347033553, 42169650342858226, 42657951880159253, 43151907682776525,
  43651583224016584, 44157044735331255, 44668359215096302, 45185594437492242, 45708818961487495, 46238102139926035, 46773514128719810, 47315125896148054,
  47863009232263828, 48417236758409942, 48977881936844611, 49545019080479030, 50118723362727224, 50699070827470443, 51286138399136483, 51880003892896120,
  52480746024977257, 53088444423098849, 53703179637025272, 54325033149243332, 54954087385762456, 55590425727040369, 56234132519034908, 56885293084384131,
  57543993733715695, 58210321777087131, 58884365535558899, 59566214352901035, 60255958607435780, 60953689724016904, 61659500186148222, 62373483548241914,
  63095734448019329, 63826348619054862, 64565422903465560, 65313055264747234, 66069344800759609, 66834391756861450, 67608297539198190, 68391164728142925,
  69183097091893657, 69984199600227342, 70794578438413808, 71614341021290201, 72443596007499025, 73282453313890400, 74131024130091774, 74989420933245583,
  75857757502918361, 76736148936181891, 77624711662869160, 78523563461007186, 79432823472428140, 80352612218561731, 81283051616409907, 82224264994707127]
/-- Entries 384 to 447 of `inv_db_table` (db_table.hpp 414-567), in units of `10^-15`. -/
def i6 : List Int := [
  83176377110267083, 84139514164519511, 85113803820237635, 86099375218460082, 87096358995608057, 88104887300801423, 89125093813374548, 90157113760595706,
  91201083935590972, 92257142715476334, 93325430079699103, 94406087628592360, 95499258602143584, 96605087898981353, 97723722095581067, 98855309465693907,
  100000000000000000, 101157945425989823, 102329299228075357, 103514216667934406, 104712854805089961, 105925372517728860, 107151930523760598, 108392691402120391,
  109647819614318507, 110917481526240095, 112201845430196300, 113501081567231552, 114815362149688283, 116144861384034257, 117489755493952913, 118850222743701892,
  120226443461741312, 121618600064636794, 123026877081238112, 124451461177138569, 125892541179416753, 127350308101666158, 128824955169313370, 130316677845230004,
  131825673855640730, 133352143216332394, 134896288259165317, 136458313658892394, 138038426460288520, 139636836105593773, 141253754462275396, 142889395851110208,
  144543977074592789, 146217717445671838, 147910838816820728, 149623565609443290, 151356124843620876, 153108746168203027, 154881661891248115, 156675107010814855,
  158489319246111421, 160324539069004175, 162181009735892985, 164058977319953868, 165958690743756136, 167880401812256054, 169824365246174438, 171790838715758753]
/-- Entries 448 to 511 of `inv_db_table` (db_table.hpp 414-567), in units of `10^-15`. -/
def i7 : List Int := [
  173780082874937619, 175792361395869307, 177827941003892278, 179887091512878726, 181970085860998267, 184077200146895620, 186208713666286741, 188364908948980002,
  190546071796324640, 192752491319093650, 194984459975804555, 197242273611485331, 199526231496887874, 201836636368156178, 204173794466952955, 206538015581052917,
  208929613085403872, 211348903983664769, 213796208950223246, 216271852372702000, 218776162394955179, 221309470960563885, 223872113856834005, 226464430759305969,
  229086765276777243, 231739464996847971, 234422881531992260, 237137370566165515, 239883291901948979, 242661009508241420, 245470891568503106, 248313310529557043,
  251188643150957972, 254097270554930390, 257039578276886459, 260015956316527195, 263026799189538167, 266072505979880873, 269153480392691677, 272270130807791247,
  275422870333816604, 278612116862976961, 281838293126445478, 285101826750390956, 288403150312660557, 291742701400116573, 295120922666638705, 298538261891796026,
  301995172040201624, 305492111321551249, 309029543251359200, 312607936712395599, 316227766016837961, 319889510969139735, 323593656929628082, 327340694878838292,
  331131121482591084, 334965439157827575, 338844156139202369, 342767786546450452, 346736850452531655, 350751873952567962, 354813389233575322, 358921934645005365]
/-- Entries 512 to 575 of `inv_db_table` (db_table.hpp 414-567), in units of `10^-15`. -/
def i8 : List Int := [
  363078054770101403, 367282300498084624, 371535229097172419, 375837404288444304, 380189396320561286, 384591782045353511, 389045144994280463, 393550075455777630,
  398107170553497326, 402717034325459053, 407380277804112609, 412097519097330405, 416869383470335492, 421696503428582275, 426579518801592542, 431519076827764991,
  436515832240166105, 441570447353312545, 446683592150963023, 451855944374922160, 457088189614875205, 462381021399260362, 467735141287198132, 473151258961480266,
  478630092322638518, 484172367584099391, 489778819368446136, 495450190804790054, 501187233627272462, 506990708274704446, 512861383991364846, 518800038928960930,
  524807460249772816, 530884444230988493, 537031796370252664, 543250331492433020, 549540873857624774, 555904257270403718, 562341325190349039, 568852930843841364,
  575439937337156607, 582103217770871538, 588843655355589021, 595662143529010336, 602559586074357526, 609536897240169310, 616595001861482160, 623734835482419157,
  630957344480193001, 638263486190548974, 645654229034655600, 653130552647472314, 660693448007595748, 668343917568614870, 676082975391981904, 683911647281429282,
  691830970918936259, 699841996002273845, 707945784384138051, 716143410212902040, 724435960074989907, 732824533138904485, 741310241300917710, 749894209332455830]
/-- Entries 576 to 639 of `inv_db_table` (db_table.hpp 414-567), in units of `10^-15`. -/
def i9 : List Int := [
  758577575029183549, 767361489361818599, 776247116628691970, 785235634610071770, 794328234724281288, 803526122185616941, 812830516164099549, 822242649947071186,
  831763771102670830, 841395141645194713, 851138038202376833, 860993752184600794, 870963589956080568, 881048873008013743, 891250938133745876, 901571137605957006,
  912010839355909638, 922571427154762887, 933254300796991515, 944060876285923541, 954992586021435955, 966050878989813100, 977237220955811154, 988553094656939038,
  1000000000000000000, 1011579454259898284, 1023292992280753651, 1035142166679344200, 1047128548050899553, 1059253725177288743, 1071519305237605977, 1083926914021203856,
  1096478196143185187, 1109174815262400898, 1122018454301962947, 1135010815672315402, 1148153621496882806, 1161448613840342659, 1174897554939529073, 1188502227437018973,
  1202264434617413144, 1216186000646367802, 1230268770812381035, 1244514611771385717, 1258925411794167530, 1273503081016661554, 1288249551693133526, 1303166778452299923,
  1318256738556407527, 1333521432163324107, 1348962882591653170, 1364583136588923935, 1380384264602885196, 1396368361055937612, 1412537544622754012, 1428893958511102255,
  1445439770745927945, 1462177174456718376, 1479108388168207284, 1496235656094432898, 1513561248436208643, 1531087461682030380, 1548816618912481090, 1566751070108148497]
/-- Entries 640 to 703 of `inv_db_table` (db_table.hpp 414-567), in units of `10^-15`. -/
def i10 : List Int := [
  1584893192461114040, 1603245390690041859, 1621810097358929852, 1640589773199538740, 1659586907437561422, 1678804018122560592, 1698243652461744205, 1717908387157587640,
  1737800828749376251, 1757923613958693068, 1778279410038922833, 1798870915128787374, 1819700858609982561, 1840772001468956432, 1862087136662867579, 1883649089489800190,
  1905460717963246225, 1927524913190936559, 1949844599758045433, 1972422736114853478, 1995262314968878854, 2018366363681561779, 2041737944669529497, 2065380155810529232,
  2089296130854038893, 2113489039836647862, 2137962089502232629, 2162718523727020056, 2187761623949551904, 2213094709605638855, 2238721138568339939, 2264644307593059693,
  2290867652767772597, 2317394649968479825, 2344228815319922887, 2371373705661655094, 2398832919019489964, 2426610095082414318, 2454708915685031116, 2483133105295570203,
  2511886431509579779, 2540972705549304010, 2570395782768864592, 2600159563165272175, 2630267991895381329, 2660725059798808616, 2691534803926916538, 2722701308077912927,
  2754228703338166270, 2786121168629769272, 2818382931264454783, 2851018267503909556, 2884031503126605912, 2917427014001165844, 2951209226666387167, 2985382618917960372,
  3019951720402016235, 3054921113215512378, 3090295432513592004, 3126079367123955763, 3162277660168379498, 3198895109691397010, 3235936569296281050, 3273406948788383033]
/-- Entries 704 to 767 of `inv_db_table` (db_table.hpp 414-567), in units of `10^-15`. -/
def i11 : List Int := [
  3311311214825911065, 3349654391578275863, 3388441561392024141, 3427677865464504521, 3467368504525316894, 3507518739525679393, 3548133892335752989, 3589219346450053308,
  3630780547701013802, 3672823004980846235, 3715352290971723960, 3758374042884443043, 3801893963205612636, 3845917820453535569, 3890451449942804629, 3935500754557776418,
  3981071705534973262, 4027170343254590989, 4073802778041126203, 4120975190973304052, 4168693834703354696, 4216965034285822185, 4265795188015925305, 4315190768277650022,
  4365158322401661280, 4415704473533125565, 4466835921509630680, 4518559443749221828, 4570881896148751366, 4623810213992603167, 4677351412871980756, 4731512589614802891,
  4786300923226384839, 4841723675840994474, 4897788193684461476, 4954501908047900542, 5011872336272725079, 5069907082747044115, 5128613839913648007, 5188000389289609302,
  5248074602497727938, 5308844442309884471, 5370317963702526868, 5432503314924330880, 5495408738576248652, 5559042572704037411, 5623413251903491073, 5688529308438412954,
  5754399373371566071, 5821032177708715608, 5888436553555889986, 5956621435290103364, 6025595860743575031, 6095368972401694009, 6165950018614822511, 6237348354824191119,
  6309573444801930236, 6382634861905488833, 6456542290346556001, 6531305526474722683, 6606934480075957254, 6683439175686148701, 6760829753919818359, 6839116472814293047]
/-- Entries 768 to 831 of `inv_db_table` (db_table.hpp 414-567), in units of `10^-15`. -/
def i12 : List Int := [
  6918309709189362366, 6998419960022738451, 7079457843841380964, 7161434102129020175, 7244359600749898163, 7328245331389044622, 7413102413009177326, 7498942093324558300,
  7585775750291835720, 7673614893618185306, 7762471166286919470, 7852356346100717928, 7943282347242813557, 8035261221856168959, 8128305161640994811, 8222426499470711860,
  8317637711026709439, 8413951416451947807, 8511380382023768107, 8609937521846008167, 8709635899560806138, 8810488730080138339, 8912509381337458763, 9015711376059571194,
  9120108393559095930, 9225714271547629323, 9332543007969914470, 9440608762859235867, 9549925860214360000, 9660508789898130999, 9772372209558112445, 9885530946569389926,
  10000000000000000000, 10115794542598981934, 10232929922807536059, 10351421666793430632, 10471285480508984620, 10592537251772897434, 10715193052376071137, 10839269140212038110,
  10964781961431850505, 11091748152624008071, 11220184543019629928, 11350108156723143111, 11481536214968817148, 11614486138403437508, 11748975549395303460, 11885022274370188825,
  12022644346174130987, 12161860006463679383, 12302687708123810808, 12445146117713844433, 12589254117941662116, 12735030810166628726, 12882495516931348902, 13031667784523000591,
  13182567385564074357, 13335214321633240615, 13489628825916532151, 13645831365889238441, 13803842646028837407, 13963683610559362933, 14125375446227553766, 14288939585111036649]
/-- Entries 832 to 895 of `inv_db_table` (db_table.hpp 414-567), in units of `10^-15`. -/
def i13 : List Int := [
  14454397707459280355, 14621771744567182395, 14791083881682072388, 14962356560944328521, 15135612484362070973, 15310874616820286974, 15488166189124827724, 15667510701081500883,
  15848931924611140857, 16032453906900416769, 16218100973589298519, 16405897731995388312, 16595869074375597847, 16788040181225587730, 16982436524617460236, 17179083871575894591,
  17378008287493761600, 17579236139586930221, 17782794100389226514, 17988709151287872373, 18197008586099826061, 18407720014689544769, 18620871366628656688, 18836490894898019178,
  19054607179632483167, 19275249131909367861, 19498445997580456606, 19724227361148532509, 19952623149688788544, 20183663636815595964, 20417379446695274964, 20653801558105311415,
  20892961308540408936, 21134890398366474983, 21379620895022322657, 21627185237270201469, 21877616239495517220, 22130947096056363080, 22387211385683378467, 22646443075930619671,
  22908676527677747799, 23173946499684796436, 23442288153199227963, 23713737056616551854, 23988329190194897819, 24266100950824144093, 24547089156850284780, 24831331052955676569,
  25118864315095823258, 25409727055493065563, 25703957827688645921, 26001595631652722659, 26302679918953814195, 26607250597988084337, 26915348039269138098, 27227013080779099255,
  27542287033381689980, 27861211686297723645, 28183829312644549645, 28510182675039097376, 28840315031266058213, 29174270140011660260, 29512092266663839837, 29853826189179570065]
/-- Entries 896 to 959 of `inv_db_table` (db_table.hpp 414-567), in units of `10^-15`. -/
def i14 : List Int := [
  30199517204020190547, 30549211132155152882, 30902954325135920953, 31260793671239556716, 31622776601683792251, 31988951096913973743, 32359365692962808680, 32734069487883793045,
  33113112148259075184, 33496543915782793192, 33884415613920275064, 34276778654645044298, 34673685045253165299, 35075187395256791206, 35481338923357528984, 35892193464500494883,
  36307805477010100731, 36728230049808502372, 37153522909717277798, 37583740428844430426, 38018939632056128175, 38459178204535353871, 38904514499428049021, 39355007545577725978,
  39810717055349690781, 40271703432545946271, 40738027780411306594, 41209751909733044158, 41686938347033552418, 42169650342858221848, 42657951880159256689, 43151907682776502043,
  43651583224016561871, 44157044735331204720, 44668359215096344997, 45185594437492261932, 45708818961487515480, 46238102139926035306, 46773514128719813016, 47315125896148027095,
  47863009232263801096, 48417236758409890172, 48977881936844663869, 49545019080479054537, 50118723362727250787, 50699070827470444783, 51286138399136478256, 51880003892896093021,
  52480746024977226625, 53088444423098793777, 53703179637025328702, 54325033149243361549, 54954087385762482882, 55590425727040368656, 56234132519034908910, 56885293084384131362,
  57543993733715666167, 58210321777087097871, 58884365535558841657, 59566214352901093662, 60255958607435808517, 60953689724016934633, 61659500186148223293, 62373483548241914832]
/-- Entries 960 to 1023 of `inv_db_table` (db_table.hpp 414-567), in units of `10^-15`. -/
def i15 : List Int := [
  63095734448019298725, 63826348619054828305, 64565422903465492709, 65313055264747294132, 66069344800759645295, 66834391756861485192, 67608297539198189043, 68391164728142932290,
  69183097091893621837, 69984199600227308110, 70794578438413736876, 71614341021290267236, 72443596007499058032, 73282453313890437130, 74131024130091769621, 74989420933245579363,
  75857757502918364480, 76736148936181853060, 77624711662869114662, 78523563461007099249, 79432823472428208333, 80352612218561771442, 81283051616409953567, 82224264994707118603,
  83176377110267087119, 84139514164519481710, 85113803820237590116, 86099375218459987082, 87096358995608141413, 88104887300801463425, 89125093813374594902, 90157113760595704662,
  91201083935590970214, 92257142715476278681, 93325430079699057387, 94406087628592256806, 95499258602143687312, 96605087898981408216, 97723722095581120811, 98855309465693906532,
  100000000000000000000, 101157945425989833893, 102329299228075367864, 103514216667934306315, 104712854805089853471, 105925372517728974344, 107151930523760704091, 108392691402120384737,
  109647819614318505046, 110917481526240095263, 112201845430196292000, 113501081567231434747, 114815362149688167847, 116144861384034375078, 117489755493953038240, 118850222743701888248,
  120226443461741306237, 121618600064636790194, 123026877081238111714, 124451461177138437051, 125892541179416613886, 127350308101666290895, 128824955169313485385, 130316677845230005914]
/-- Entries 1024 to 1087 of `inv_db_table` (db_table.hpp 414-567), in units of `10^-15`. -/
def i16 : List Int := [
  131825673855640750844, 133352143216332391603, 134896288259165332420, 136458313658892380772, 138038426460288377712, 139636836105593625689, 141253754462275537662, 142889395851110370131,
  144543977074592810823, 146217717445671820315, 147910838816820731154, 149623565609443292487, 151356124843620724278, 153108746168202866102, 154881661891248280881, 156675107010815001559,
  158489319246111408575, 160324539069004182238, 162181009735892992467, 164058977319953875849, 165958690743755956646, 167880401812255906407, 169824365246174595086, 171790838715758931357,
  173780082874937623274, 175792361395869316766, 177827941003892279696, 179887091512878745561, 181970085860998253338, 184077200146895454964, 186208713666286552325, 188364908948980213609,
  190546071796324831666, 192752491319093649508, 194984459975804551505, 197242273611485346919, 199526231496887892717, 201836636368155974196, 204173794466952735092, 206538015581053128699,
  208929613085404096637, 211348903983664757106, 213796208950223255670, 216271852372702007415, 218776162394955172203, 221309470960563630797, 223872113856833777390, 226464430759306182154,
  229086765276777470717, 231739464996847964358, 234422881531992257806, 237137370566165540367, 239883291901948978193, 242661009508241433650, 245470891568502847804, 248313310529556794791,
  251188643150958203478, 254097270554930641083, 257039578276886459207, 260015956316527212039, 263026799189538171049, 266072505979880865198, 269153480392691388261, 272270130807791021653]
/-- Entries 1088 to 1151 of `inv_db_table` (db_table.hpp 414-567), in units of `10^-15`. -/
def i17 : List Int := [
  275422870333816914354, 278612116862977214623, 281838293126445496455, 285101826750390988309, 288403150312660553027, 291742701400116609875, 295120922666638391092, 298538261891795729753,
  301995172040201898199, 305492111321551550645, 309029543251359194983, 312607936712395574432, 316227766016837907955, 319889510969139693771, 323593656929628108628, 327340694878837966826,
  331131121482590795495, 334965439157827931922, 338844156139202765189, 342767786546450457536, 346736850452531652991, 350751873952567926608, 354813389233575318940, 358921934645004977938,
  363078054770101036411, 367282300498084980063, 371535229097172792535, 375837404288444318809, 380189396320561238099, 384591782045353553258, 389045144994280475657, 393550075455777230673,
  398107170553496922366, 402717034325459506363, 407380277804113051388, 412097519097330397926, 416869383470335509628, 421696503428582276683, 426579518801592581440, 431519076827765034977,
  436515832240165618714, 441570447353312047198, 446683592150963493623, 451855944374922604766, 457088189614875183906, 462381021399260323960, 467735141287198115606, 473151258961480285507,
  478630092322638025507, 484172367584098887164, 489778819368446653243, 495450190804790530819, 501187233627272478770, 506990708274704462383, 512861383991364797112, 518800038928960973863,
  524807460249772295356, 530884444230987923220, 537031796370253316127, 543250331492433557287, 549540873857624828815, 555904257270403672010, 562341325190349132754, 568852930843841284513]
/-- Entries 1152 to 1200 of `inv_db_table` (db_table.hpp 414-567), in units of `10^-15`. -/
def i18 : List Int := [
  575439937337156618014, 582103217770871007815, 588843655355588416569, 595662143529010936618, 602559586074358085170, 609536897240169346333, 616595001861482160166, 623734835482419119217,
  630957344480192987248, 638263486190548283048, 645654229034654912539, 653130552647472941317, 660693448007596423849, 668343917568614939228, 676082975391981890425, 683911647281429264694,
  691830970918936305679, 699841996002273052000, 707945784384137368761, 716143410212902701460, 724435960074990638532, 732824533138904487714, 741310241300917696208, 749894209332455880940,
  758577575029183528386, 767361489361818530597, 776247116628691204824, 785235634610070963390, 794328234724282170646, 803526122185617685318, 812830516164099564776, 822242649947071215138,
  831763771102670812979, 841395141645194729790, 851138038202375872061, 860993752184599870816, 870963589956081472337, 881048873008014634252, 891250938133745919913, 901571137605956988409,
  912010839355909614824, 922571427154762903228, 933254300796990515664, 944060876285922597162, 954992586021436844021, 966050878989814082161, 977237220955811208114, 988553094656939036213,
  1000000000000000000000]
/-- `inv_db_table` (db_table.hpp 414-567), in units of `10^-15`. -/
def invTable : List Int := i0 ++ i1 ++ i2 ++ i3 ++ i4 ++ i5 ++ i6 ++ i7 ++ i8 ++ i9 ++ i10 ++ i11 ++ i12 ++ i13 ++ i14 ++ i15 ++ i16 ++ i17 ++ i18

end DbTable
end Verif
