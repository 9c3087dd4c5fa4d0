/-!
# Slopes of the double-and-add computation of (q - 1) times the generator of Grumpkin (generated)
-/

namespace PF.Grumpkin

/-- For every bit of `q - 1` after the first: slope of the tangent, and of the chord through the generator if
the bit is set. -/
def slopes : List (Nat × Option Nat) := [
  (2736030358979909401127830354296067945115552810594024766485864098290069017684, some 14578549823221308323220597756587432485035405862404868305473380667758607442899),
  (20524821071216138140434491967839195975017573142875752289699917359276250932617, none),
  (581556802902522393740248940611932214733225380220344378736769747451316930832, none),
  (13167146938190399443015173161144552545722983752210625382234117392293192090589, none),
  (1590066212203112924845522922089132101986015150939559042860874712403847455039, none),
  (21707264023526297385611895447027847734876270748121750658218611750768926003326, none),
  (718214699865157634960923464744724507068797667838982181372287365846888306261, some 21469752977934273305839942407589141835492415087343255246415792273827892244524),
  (18385835993123526746243677419586205422237056167040554977589784145869608639819, some 14687510550666898088037789318367397965631305010700585678678970108285753777010),
  (13446970404901198201772137874222542196269301931919611313502039113924670370791, none),
  (20820363897790487987626904220778251026070806798228843656155694202980352679572, none),
  (13526557550838972829998335440569882008672621965567216192231259567230196305387, some 12251004428159562083510750884638360243983559868800128451550887430030342456112),
  (2503330134491986374871191307379200026381217377539355181310857571510106485703, none),
  (1640753039975123493206398787468326275503106022039733221398238371747866976733, none),
  (11617227637579516076639221886147775216912986194830310405713314355259538087644, none),
  (17904394081586485485953694762202456167795174719986724184031813366896706537330, some 11090830987165530758033842267900532903727403240270714029689478887890363131156),
  (6977266254249711488377343898816323866345285680014976408784676461601932525953, none),
  (6983799096304541308140924986136387003384955738491868902652160711395361828393, none),
  (5674149193272021194479159950806850772998414512209833342557401509525592262184, some 11156999198244564671885456653040764157927416333353791287340961775968209040938),
  (6123468232637680050770947472186655444532858482920641117869904513257549105134, some 10073886651701597209713408516751725729445273892828507221427221287471214506420),
  (16742568358836829705186230810511815520760574566797969661328150529439901576910, some 16923219344966324408597586107401171080313686813100480050833356568119912132635),
  (18085021653567233592957906462727567522530568652412874875878900155768566542642, none),
  (11021783334400738621954408153568057992908958075996024204305558241517223730817, none),
  (20948894824449315908932599585820975972558814301272572811912983428136868834002, some 18051225528637289110762090909709651904353595901684897219909909567572664491906),
  (14296610742650695522623039321218391184422194469077838834668970498225379052834, some 18591138259146388942539861213557875912046152696195440362223606152916357394932),
  (21653759731426981145057223656971764656739668308623212477401635856384108091718, some 11140955643259705395862868882253156865345291636477930931965834088755251154534),
  (5263629699884902334893815317360274844180132953687524456435991393659240547509, none),
  (348448244321862148956108642036454112950828269969014845414426457844978978793, none),
  (19711885255711743980052765996642215246390805084736429460573550530331487927589, some 14803539014311488685326108464593488662213066458104903689375457172143726010355),
  (16468694181562528529843372676007862567762966335831908720080900928959045462062, none),
  (12009265100843565375486038369552574345398797485917570335841421106422684415402, some 12504837875062400181993385146619495122332466760550299579110754270434415875853),
  (18489472049103496882746332338363932263841020485135217531857564560094902697884, some 17566822877233534125492239507780255017508947425850490644734627411068244723182),
  (11228238562560705841629748256567697569303633757280534184739105704580317545483, some 7315939116223794050366720872255035365983817007443810897559404898051774058704),
  (3112250494955564992583322197677373587085444430140505900190742623090383335838, none),
  (5018154016000413294911121435777854249941174448630374718671461200383749816708, none),
  (3146766129167482244163358173740896796792219523725215452832042455828240229367, none),
  (1639272332896749084106557511142198133584384613033593923874065225321851512418, none),
  (14255462291859353829653373764296389247456610325404908196864918543172404234591, some 5555670435918429636683773485895578431282327515019094040708724728759259849322),
  (8869273141366113488312994412042403197575816079362708414271773074883696250958, none),
  (2036825697093345527062149125960527142364659531240477839272232790182318333199, none),
  (16709574022171780467305851657411273957642974006573923493048186021276270568448, some 18774188093336672124363172219023293753763268638660585443209319425055627324609),
  (19961753112792625520497199560065143553325380474177928036061068221108883087311, some 4075195888509292534985267881189865726732764796333651738530630232441884543762),
  (17136470423544008351794899281940533513365924328071988878627719838409181836444, none),
  (17137846606461016307057709578789626076928669755745527138602659293360674612907, none),
  (15280402662271256301183209174814844641646653661583018389899783976588666907573, none),
  (16861347515156980692693825640157462762949332283332976468632864656449117837044, some 9561730716351711491533422341234426340351136423323410338014710834382029918917),
  (1708914753611645870362261875111747468031801769409383461957226686636018397238, some 3063062380548477748790586825300116914827138237444885117051453419709337812908),
  (14826224732669376515167605782069980480849642395097576881911020072228219682969, none),
  (3606046271969232094004935341099917422291464257111674595266428289005461594917, some 2949739459933682820064554840731770075787171568470372230846783256961085045321),
  (17023984825543911370761496263989991996572885082455018388136552652854098086529, none),
  (5056778443360531716995846022216607174174552268811670890237894236463626003716, none),
  (10625805131706138455704741623105625941261261261073124010696013833919772269444, none),
  (15015846556681494554326343823713602109025373101859708598118408834831565015941, none),
  (20258009239515313665333228901719858774081520204590727664623987993312131628842, none),
  (5286613093161889327345780033897925021279638175235771936805076930469556316054, none),
  (16880976804994695678899170910342509047077824050356652267709990986857100840164, none),
  (19091453430191682816805209013964491991776098719714863022502565164326869181622, some 7767689981836452150350174553660455273900954178927182284236701816565685032278),
  (6252481766025495392173987731693326231100585524438657508568012497689944925249, none),
  (5451258319606724015804878406456750053329634292863049038061993678029309004093, some 1019293602461785046612617719889662740077747949842141553183322777225339168759),
  (19467329333466485213086108388078475087047997900692980225650256882454789257753, none),
  (21353997849049264557822242211125856235059388642281679684889060318806913489444, none),
  (3118834156449037280277798611433777383341518342935562276511608077105591490999, some 11207710647737592157558900537938258317808915247440342761699439439536537960477),
  (20327918571273115201238565084238465996460941636681552200046588208598392561721, some 11954223977570314349002090839568661988606469526431842145936436041120156885557),
  (5427922804446354130194648588978361809445757550977937955567255968819171249932, none),
  (2149264083341645970690455855647028314061663118668876786304850988425573161346, some 20207270671041191702530025766859137195073618752860562090592087877088900203289),
  (16325311565647939026090523853758962798753103601397354821928472854526820623524, some 8728847112020935029060483336902767263065124622079903125467723420077002067819),
  (18864814870712279554122681792004302477947033108452231927903895832190631374511, some 9759665804640722558466576071968537718221237189421223377813530581996817220363),
  (18332160073362786259526721801589426731723473193399679858491113299250836714845, none),
  (13626830504041403131863762444144993925654113852708499431264876851696760724054, none),
  (3117428419118592741064377867589807395691103593881704384964430230626711274037, none),
  (14066408731164075097238012139543555105179184834873384398208197101451855610554, none),
  (3733597923133633994171104319452369313113325885436619421119191762102382192846, some 4367480633812253699297003777644790746327935097513700326925497220379700585545),
  (4635766697770708582834393472902745230864023532966937569570627920019909523812, none),
  (9330421344628992975554539996469206249074598522859826051383812643732556281674, some 20955933293104694053780933684223413035884934717239851483660206826911315253752),
  (1743373834755906689593558989737277211233157889364610331578029948777114539782, none),
  (15253045042677384412205219679860505962426241020008744414872279448272954686942, none),
  (11100682574533503582736180717483452994327162618879682002390191024085227277475, none),
  (12275602977592970724798185932885489518546658719889646273530147471868423912718, none),
  (18385005109419113045687652841731830277951167536137115469867553976249446214274, none),
  (19461909525185969762172772729287499001372887120108263378139183304841934715226, some 15657493546285860597181084923909949836335787887687903629705890075347654448780),
  (10179194947644919100898103445640152077692307676222137814906646472202783812581, none),
  (149168853156801283072976862949044800598843446614812591060885813877332935745, none),
  (10098789120929868340134935462114257999901234698937694984602577154083190953363, none),
  (3334091493182482956437312769703998116195922671840249628152696292110059414245, some 263137365145972816937306072703880676723214731375710026335842084385764951853),
  (19585964885106340401108115094153435476885056823945136098631545934785495800103, none),
  (7481638816624107457558349064084133651956200370964943374214359228870287391912, some 20393858902353090020863134915678268715154993585588429629078990216705582649613),
  (12793745852531633325276741257975270690479793777567689538123023325099976008466, some 19920844574844623782252699644105881891236637336899406310532669779308338189684),
  (19575868414241826105105197630610846871973894978351145004829308087981364727332, none),
  (1973076357030892780293512893769265134455459069681911658933398668699922127709, some 12967011701531222849492753292100285035544203166097068257860630162104349368161),
  (17852582778059960631601271241917363983272682833892160188918158913801344999691, some 15128285538992867444653264746229042027316316481421187331286446485183731682266),
  (2906161641769419292838850798195343910558057311749216198230625092989303229277, none),
  (12093225404702714409233849093987266869935966956680235672722770449879334448030, some 2858336467353366473286720259423209229874457732994106836963223759612489855692),
  (12200927970970357099273404036730829428481866079723190260847435787190566168421, some 3328953831876638001958635873582966494923549849892243941698644369105217155360),
  (5068031400540890234627928005814270844426190448056370570640096989373498142639, none),
  (14444372946374004376020005970008858425669370750751905276681082492834691160220, some 4407764607894844303470295757080503931905659247535794883616039997263056531321),
  (7879615923670633262763991260124960182169015245923760602878123916886124666996, none),
  (9598959247742341679768808856085523905764730917685761592624053599999920166976, none),
  (12630415285952259457946417116780758514877868740042471749128596669470644519244, none),
  (14067911128166186314128720385512301793913999297738790126034499945523572018416, none),
  (3788069521466896469183509646147656255046387498360730919235993165378664257696, none),
  (2422792470279751896837596641637021757144457903709112492481177462801075099081, none),
  (19024710622482221934568315913664336173791448965320200981923087382718984292889, some 14268285882392508188374257650051401234097124256372944189630741364047236217677),
  (11243191239435580279177709796472789461127839715283409380940357573686280282187, some 5534904120400086944406056068261022462658844571636606606948482428600473696841),
  (21181353901873043104831837050003126349971794806789712130678375037895440029359, none),
  (11652435942594898027767422524708004100393791891940821657363783493371191175137, none),
  (9398753834912062485445467512281993084385964515604594677454624701229217262937, none),
  (9006355312409391001718406306782948548715395797308704761191913371171508490040, none),
  (13737686450455283663931140624992738698184629316011207627911960687958682684441, none),
  (2740838212047277715125319659321022996244750508440076587198907539111821923185, none),
  (18645358281716646908314087716918396224634955824440811495086330621667068317472, some 14156192277348733752673264972133549382829955244955988569540677125783665558007),
  (11544136775114322859185924953184397414925984155895790137973373999368421788568, none),
  (9064846138797661715246305995075046043610841775549443710935678455496255348854, some 13122205152650531137618231196278307209621368789456632753657038052448647558060),
  (10948508951384415834227786626063035652787644680019299900099881238036559351741, none),
  (13022981538909835027961943017992872014732757755079872246665122038145463072656, some 4005834752754343711487691823852837805897105594527973235682601941037666017283),
  (4827924758187517082260113708516930290953705669805524963252513028730435792599, some 9266585348543839072872619829032893646796752723077271786122268297793032616387),
  (26318808432446686581813768693981014067703194514216918652819339109893176169, none),
  (10819043764291459696190787489123716168406548149556658469300167234899305172738, none),
  (5998383847968800063481906396330098507243004903112857110106122035198820242202, none),
  (21042293722690180335423137731032598698898216578803146247355668930707654601047, none),
  (6732954302459203056198399687548139007556125755590698406904343658210796178526, some 20179816303497024451496672839660168701527553333214144140081011401226861482873),
  (20654060883636131092983727167766911214539315497264717150971060476061130808343, none),
  (12768292350031913526265434073607863003996361187266010288223607688940571986107, some 18471526888929961933089124116713460307283659662112275472321114765281586169751),
  (7979354945832868756274402895434610194761053256884781976942897993229805203324, some 18470933196593398751632448831227849639706500552754245305630085975658460549754),
  (4181090888082398427920361757797374062690937995867757575471886064661213066318, some 1404325373932923850716102657090518578121562772328448667500956211257170926810),
  (232213966229048319422284959789418105079104398611714055788675673037236151773, none),
  (21330092250226077509194806839940988830160428528558942204296410614264796035556, some 14079139526898135821892393865218753688897890305588863153261802223793807433033),
  (17812624510075705480178338435748033673237395583608623651466333100224360850116, some 4621202360565276674813107518016069937989891003341595113567250313653632163960),
  (20216344170638390000402647227605163173156442074703055981491690898974565820141, none),
  (11110341619867085213879293562659954424505737429729612347685385642160947248891, none),
  (20240317802383659340380927404174826322986690696898824445740801001606536871577, some 1876486981680453796048075369595909252440964071000541402911028492270038410632),
  (4302763113835554327141454373533263870577150922692586067331947248360901612593, none),
  (10114790526411260070400560043555124568403184312088047955527314958907616394199, some 16637404347339807478264352565846952255525244717240911800549676786740666112363),
  (20127825243713315856396578707988328358117214745921624981944608992505205385740, some 13282113188420213563076002779000658739889091955176999780490161629088913148076),
  (8860069374732253306434320348400687649623119081087820320484941409892349540604, some 1628426862692640663344086731697591367426203153868855139660267198903354119553),
  (17431663151853531833733583476767010092205757598686232258760554409440118937531, some 3283556263514262012926571296551978856946727965446329143683009609026180652483),
  (4676935615441872937289180526738365288047155904069473603791712823942428607017, none),
  (2182121190657595460092926417912383669598761827898628353896406670974266155857, none),
  (14045205501198339699070158594948477921366368994700200407602767176544601304079, none),
  (14803267024535595534649725035397100428720290077257728528729245601527126453007, none),
  (586924214021296022451449853587928085980039423518515256661182418824581588882, none),
  (21323236385423977752540469150379188105524548113209722935991686621111020414373, none),
  (7712518220962414530978423521799370391898986267049577732779708105609658149502, some 314702946325053771374161797171953543704977505740404306837073081756275482416),
  (13891697874649304403960347272600883912088287315784934954880327557107621437171, none),
  (709467532060862130419617174395937342641882526220850575173106752786919701769, some 16809981933436989723119049308273933377622891916111827238344079846201891249901),
  (19598890638883064356177159309504127927929704333894178941232597947914771187328, some 15135244556339940280782428767366922642780013427866097102291245723325999360772),
  (13656540144873883263360693653828572893480244120883757851825923708565536436610, none),
  (21026132235780653455184761182155789689689839540038165821859165685811419275346, some 7575615723727384393364857429811870625792418976270896593364853148559335480830),
  (17102125401933203386643380177172327381878307990066755409791029974839144372365, none),
  (18255667026077141323341352751274251429074827254771064591037272960083525450585, some 1876796346976948019863728488264383537473499037783082083758167704358533766354),
  (7806138279562516087491621906732116219375480310983638463969859668363151454584, none),
  (953520841093481299125880759856996976054946415920700852003336449126106425984, some 20347240476035661656932264311110090469974015323076692496774248548322944279604),
  (20028212450445331466246711306702535422738295244853780921796964875344501145394, none),
  (15242370780974344575775877364981395811083147216649723401196563956916187720488, none),
  (10717293242539913803402187897010494031954855559396603825177106114504938470223, some 6034071375694346170165551188561216349511232844678444019105781421364357037918),
  (12741351216264781527479549067364391871801526001414668587164760208358187647120, none),
  (10812864778844810402743670396229306183846607727783483578711034077546901414727, none),
  (17520608428018357549349394580915470043464957195219989954469556711195390361154, none),
  (21191492361419830502515851215056574251633111453442859260176630272248635939430, some 10656823358117597606599578377796895280599608901539593366678060641891736688096),
  (11742835408269878230146676211698848269340168764778723877521115410437424488461, none),
  (12052154369917399699423295082083354159820171013078149984714255700653238554693, some 20153499058783714993288008439316185779569159291945854001494993939321701443048),
  (6312059954939791987200588292125950266590797799927593468613277983569357664955, some 11207750933662943056016725155886587492588207398246757188349952490156044428433),
  (11505602294648639279035164649483842080180038166902953090312421975921153389447, none),
  (10213065593649692961994755877179449041368434056568430846363440419090107625185, some 12098423408899621978512408000413475402267208626629996888210008938354088438330),
  (19001631360232445560534672910420673656743421620690280774572289515270580186266, none),
  (19803712383082762030376748801619369063718871768389391561192108523210083170822, none),
  (20478925857714333550156781584122679021210251359938259754827417669655175635657, none),
  (3989651393384134431919486680241297867135436169058246700888759177855796917659, none),
  (17909920375238650564034545304142842148051989758941993261022424107045120925792, some 21708409005373435539301760488525542161716248379552624061546992055883067479356),
  (11182840448882560981643857893380547216390943735116155257967252899444082331438, some 7585907249491130768879711517124324704241305874592484363120310014584708354269),
  (14050304309363071149684945204670175017853336049824095446091424723153030617228, some 12331958906179579887455205711018440317232287186116885395835616812580927757843),
  (6012155735397473222899443737741654716605450681601160358182377044311776969584, none),
  (10597989887003438407374471033392870077549207442911401830090158849576514511794, none),
  (11766636745296601167967207931395830016102268668643060935005834040890837970921, none),
  (18882729015160309080594510831127045504633794248249050054366133682970126818518, some 12063492769384442813146495036368167810728383021654584967921212912379997970425),
  (6179843878457615590009135108622422634708396284125445002386516048465563215906, some 21227339437779397404386923072361774231756638576584076362068597049582601660762),
  (591531947903584336575844138254269463174822734095741770192992362556127839089, some 16259866361980008531030094626592703949302408478510811844229805231910279800022),
  (9765442979290900868494763236563167559686340534850152529325000548146666735731, none),
  (721209299239556376139387405221724696720455032653396130136202632891321168970, none),
  (16095361500563462087631443092248692347456848417827014340007287018573827904362, some 17980702620212851711581645094556946795078690863002158042687829419387803490777),
  (8360838742203523402258668543840244445656506416320074940321381445623441572994, none),
  (18233985434409240051231882160355168111543501300544312441033647778735658679294, some 21746006312560912284635803080299056666673489639430592278725548684223347249926),
  (18381314604420940115083423031253726688229947091926008116253954142320004496088, none),
  (14303501735411269649532347491360547928462659362966627461989513581417787629014, some 17167281492863520125979145220620693249616818529137757007178531854273254824073),
  (10491064535721032286821693995653037917045278318639635624847881683033249823446, none),
  (7828104445970142141935906427060824258106540352455401057548393331599898161656, none),
  (5967257897190523591663070026038070457722958673065127960987577752642266471380, none),
  (5185581907245954610976246075442696530909062382479700726275771085805414833544, some 15655511591130941000342507997548035565398863195486908408894751416271216415099),
  (6730725990101562334871424554042475456164246319499732670481409876818034908049, some 8645505317084875901605970138134483673297276237107652398456370916112473280539),
  (4566570183621889114570113839468071743031297743877145664845891226028354785351, none),
  (3745991478990153179488652771858047356520909751382583808515199482834369676285, some 18850426762338913308060781865221746262133277271661173243420068783222725809784),
  (3385917562922302189192767182137304640751489975246481125244297927498169831447, none),
  (14314770861116211516197987590316975880030619609918470163005733562905858635818, none),
  (6146554380258646577791414609428489263254182099356229372870251135619293472992, some 11840624703714276174545285029899192377940502703415945084066201044092485874083),
  (4694119632055573049643469022333641975388675975697799815105152683530322228773, some 12786850864350641397417703333882556851076510205507369861540436716448011785079),
  (20010312634350237052064535894385980656839497269806860941079814886472892878237, some 13699520774866680476045028309774875012895004947816057023893657415240910719706),
  (6346254492549301590826004032226946654197036152985265683396986314827513018513, some 17324439760440221534000809076466164483803406189179455669863730065749035154418),
  (14586886226273155581746592496119408186392586195759585615297807079376098405698, none),
  (19438995385315174566386477065206628435558738426392111948289329246890073219521, none),
  (3642882467526657986281367085830866963357165741262416569715057135509330157953, none),
  (15484544704861393661129509528675548958670927923048859165529809843206730658185, none),
  (16108080948486463291280834833490139541800722625772138148377142277644924015863, some 12422479049601225909993946392933041734546917911446697093075890549626786702273),
  (2859017984027423665059153560585171875249215084629279853355118462742416818691, none),
  (14064613317686428787054033220538993608654284582889680322730637194058394408769, none),
  (14029791763571844015465934780576403976513454783225822247412444978148762801966, none),
  (8825605131428965700358126815029104473295190883979763471638092877502914549086, none),
  (1688954713741483116233158698870024227797086190421891007135509773956949724017, none),
  (2097681342460214641688963225808511539867763114794767012561493919995828871010, some 2834276598965190870343197536916424883503289887972544429359611354040150493588),
  (6783101363315917348670897813250325114330876763027575245412693899774571473555, none),
  (18379579684013468262599840593933568507860819773111206654204690470806294121830, none),
  (19285122795205569556986307775144357022723778815001462684627118159275999836840, none),
  (18625293991344810368613943148118288274152789147494285189917151971378651548676, some 18464982149909673256301583311575384890085462024476063304292529953651226049850),
  (3670522487175931035419662686161877858133459530905034801124274521799150392228, some 1892691356114958780429474630892214023267130804278055927669073356959800809224),
  (17014119315311932418102039731024721485482826413156067336463319323676587904152, none),
  (1775202724265814070016982352436739382777339269885004254597824391875708165222, none),
  (20799666952997144289457700977379291466763797834512482162694173348351146351943, none),
  (96647265021825938445029893239132009336379619794937146542928402159013451543, none),
  (5652952958305644827052305230203568903173095328428918061824702662524186662377, none),
  (3421778430570317090423899323503262575024486762019832713120977584197512160865, some 14203537317710734478317826960676720273055553054876060731117086779945066608560),
  (19645332167897835438224855668077790606856005511679184645414433137724648571410, none),
  (3494703925670678604272077709837086063092215602527265563301771317216892675682, some 19291495567959491537001245993551789956969141099773339716083633793967659357947),
  (16891527287121227196320079735402873077766706389661286752321894099501968166946, some 6904591616136002436320765497529773388678212729051977899857716939975058026565),
  (532788421544835140193659536977067131853058613453375175484143691127064647561, none),
  (2146561834829817881645361753988827057882357830553098267397260693464156029728, some 15530476794698297008476258435061826231532500170515798274943202102565226885927),
  (16619793509740501315929062499130217265110975198936433802996557870172610702040, some 9459625468370176803882853596290442015645848863339010496506642306650829307602),
  (10339623850201375924812122077622081535787804265170003447477711502441010953745, none),
  (8066660577883486773461102310566446953328460654727867128131235478028562986977, some 9417367850424604633221816932927034994601902859888550614897125691654328395178),
  (4559702626860607990777176334713436798214706409981960164152731605450640582068, some 4209292867095395680691993402947354079915296014129957284632090506013876736277),
  (20545979905510385562949623991913166374588946864361617901425690608976276613232, none),
  (8401953140111918398328795091316925508402708436926849301963358720218797198722, none),
  (20890013532766442944699109855521612170556490663233841329530515571559473207405, none),
  (14050743651709736162268941425418857984146926177834505336126469732020725627984, none),
  (20524767909871991536062411968298824465733282429217900410586747333342434218715, some 1001608138939604199690415113499343711688009225374373704305619718670216323625),
  (14731499272541275088922279102977558167036440628383791795263532124653722130736, some 12632749988857152106295996828073741038122479203666135481732075323346288362494),
  (12065619850839276822002397164472272923091316494640339130037448866050787789091, some 4627479665876466346828547112345972029974735136001809006604270584107576369414),
  (15682683301218219849036562610725714502517294282649461505066924335823643844257, some 15272100246402276544189860189011785421758483236273755612068908469905616068290),
  (7541609684797320575975942896263304602998697243543259696610130616653999607378, some 21225177858316928356604726715223338482872518178511440132320824615133119305950),
  (4757507144171187924566046046212295959625627890277310458422562549592384781900, none),
  (4056007550002330119122617366746618034887008920806432799295705773559696812380, none),
  (15110806437381126338269115892837988602753123980581021321034104449307264069201, some 13947593663764242976441794882524313026764607341939151294233615053104142913072),
  (4567093159646306874652210129413747815993276344028860690271878050118471809761, some 283578224982155474618241642304650003313646331847656858432334484208673093955),
  (15699683274704412925783712660108378113275746650963568166699976261328715129533, some 19197768261163603738816255511081788501326772799260824166651748825509769984689),
  (2569693657312624452660601271024916242383577473914094415483442785242427438644, some 16199360553910319575923451982197508184154616016248265854734018115048836360937),
  (2717709093170596169862149920004214017208607210784572846403644558113802581438, some 12257850631636891521051442826621061584387767903039764754026377631743769039185),
  (13325734566862636318095971893059453419823912689449037011712563623972971529828, some 12613456282020518306440326421233733471505343912200108347033956348277057504558),
  (2464490016424904951002090215779928562177218486536681078511202398892070828947, none),
  (1286779809668536383422130788333732905609227144796045633573006704441958318654, some 16189090970695556990212530157545273555854524423403691858204230009252764131264),
  (3623751673005713621956952187685219196687929300504371422223151307132642895055, none),
  (10805068798492093584250315352153294260241581696737268654089374385071024257858, some 14568995934163998760177094752837615299217276662571247077183840119184317769831),
  (20801074825989938521445335453557198417665080840681046906911483330051497810596, none),
  (13497506492525782907072767392620938750408211496575023806544377126408474035444, none),
  (18952726104530428357283454002782570755426730270526299870525439262574715838423, none),
  (9790565797864018786796814179982400639194226823454724365426690876576375700778, some 16274395042172362694033031402162932053531483166386119501765609075063059735984),
  (21039255950926406659749933171163376954854567991764280367780963698137470847437, some 4469650058564648030465198066118563117545040637009592793248991653357708495518),
  (20492939586737018079397741739063063161480875623122869877157143993211802070895, none)]

end PF.Grumpkin
