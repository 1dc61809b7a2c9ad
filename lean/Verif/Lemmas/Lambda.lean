import Verif.Props.LambdaSpec
import Mathlib.Analysis.SpecialFunctions.Gamma.Basic
import Mathlib.Analysis.SpecialFunctions.Gamma.BohrMollerup

/-! # The asymptotic series of `Γ(z + 1/2) / Γ(z + 1)` -/

namespace FT.Props.Lc
open Real Filter Topology

theorem poly1 (t : ℝ) (ht : 0 ≤ t) : ((64)*(t+1)^2 + (-1)*(t+1)^0)^2 * (t+2)^5 * (4*t+5)^2 ≤ ((64)*(t+2)^2 + (-1)*(t+2)^0)^2 * (t+1)^5 * (4*t+7)^2 := by
  have e : ((64)*(t+2)^2 + (-1)*(t+2)^0)^2 * (t+1)^5 * (4*t+7)^2 - ((64)*(t+1)^2 + (-1)*(t+1)^0)^2 * (t+2)^5 * (4*t+5)^2 = 11025 + 49245*t^1 + 89666*t^2 + 85122*t^3 + 44427*t^4 + 12096*t^5 + 1344*t^6 := by ring
  have : 0 ≤ 11025 + 49245*t^1 + 89666*t^2 + 85122*t^3 + 44427*t^4 + 12096*t^5 + 1344*t^6 := by positivity
  linarith

theorem poly2 (t : ℝ) (ht : 0 ≤ t) : ((8192)*(t+2)^4 + (-128)*(t+2)^2 + (21)*(t+2)^0)^2 * (t+1)^9 * (4*t+7)^2 ≤ ((8192)*(t+1)^4 + (-128)*(t+1)^2 + (21)*(t+1)^0)^2 * (t+2)^9 * (4*t+5)^2 := by
  have e : ((8192)*(t+1)^4 + (-128)*(t+1)^2 + (21)*(t+1)^0)^2 * (t+2)^9 * (4*t+5)^2 - ((8192)*(t+2)^4 + (-128)*(t+2)^2 + (21)*(t+2)^0)^2 * (t+1)^9 * (4*t+7)^2 = 1181999511 + 10443569367*t^1 + 41924535412*t^2 + 101089414812*t^3 + 163032802418*t^4 + 185252187618*t^5 + 152068516668*t^6 + 90862831500*t^7 + 39223967201*t^8 + 11931469440*t^9 + 2427990400*t^10 + 296828928*t^11 + 16490496*t^12 := by ring
  have : 0 ≤ 1181999511 + 10443569367*t^1 + 41924535412*t^2 + 101089414812*t^3 + 163032802418*t^4 + 185252187618*t^5 + 152068516668*t^6 + 90862831500*t^7 + 39223967201*t^8 + 11931469440*t^9 + 2427990400*t^10 + 296828928*t^11 + 16490496*t^12 := by positivity
  linarith

theorem poly3 (t : ℝ) (ht : 0 ≤ t) : ((524288)*(t+1)^6 + (-8192)*(t+1)^4 + (1344)*(t+1)^2 + (-671)*(t+1)^0)^2 * (t+2)^13 * (4*t+5)^2 ≤ ((524288)*(t+2)^6 + (-8192)*(t+2)^4 + (1344)*(t+2)^2 + (-671)*(t+2)^0)^2 * (t+1)^13 * (4*t+7)^2 := by
  have e : ((524288)*(t+2)^6 + (-8192)*(t+2)^4 + (1344)*(t+2)^2 + (-671)*(t+2)^0)^2 * (t+1)^13 * (4*t+7)^2 - ((524288)*(t+1)^6 + (-8192)*(t+1)^4 + (1344)*(t+1)^2 + (-671)*(t+1)^0)^2 * (t+2)^13 * (4*t+5)^2 = 62460123434225 + 820594462092405*t^1 + 5063507195369174*t^2 + 19498600258285470*t^3 + 52508775780571531*t^4 + 105008619399654879*t^5 + 161616345206867756*t^6 + 195734761102175172*t^7 + 189104879251372631*t^8 + 146835109186417587*t^9 + 91851967457476262*t^10 + 46180711591213878*t^11 + 18523673388122979*t^12 + 5847617862566592*t^13 + 1420959798355904*t^14 + 256480143409152*t^15 + 32383874605056*t^16 + 2552611995648*t^17 + 94541185024*t^18 := by ring
  have : 0 ≤ 62460123434225 + 820594462092405*t^1 + 5063507195369174*t^2 + 19498600258285470*t^3 + 52508775780571531*t^4 + 105008619399654879*t^5 + 161616345206867756*t^6 + 195734761102175172*t^7 + 189104879251372631*t^8 + 146835109186417587*t^9 + 91851967457476262*t^10 + 46180711591213878*t^11 + 18523673388122979*t^12 + 5847617862566592*t^13 + 1420959798355904*t^14 + 256480143409152*t^15 + 32383874605056*t^16 + 2552611995648*t^17 + 94541185024*t^18 := by positivity
  linarith

theorem poly4 (t : ℝ) (ht : 0 ≤ t) : ((134217728)*(t+2)^8 + (-2097152)*(t+2)^6 + (344064)*(t+2)^4 + (-171776)*(t+2)^2 + (180323)*(t+2)^0)^2 * (t+1)^17 * (4*t+7)^2 ≤ ((134217728)*(t+1)^8 + (-2097152)*(t+1)^6 + (344064)*(t+1)^4 + (-171776)*(t+1)^2 + (180323)*(t+1)^0)^2 * (t+2)^17 * (4*t+5)^2 := by
  have e : ((134217728)*(t+1)^8 + (-2097152)*(t+1)^6 + (344064)*(t+1)^4 + (-171776)*(t+1)^2 + (180323)*(t+1)^0)^2 * (t+2)^17 * (4*t+5)^2 - ((134217728)*(t+2)^8 + (-2097152)*(t+2)^6 + (344064)*(t+2)^4 + (-171776)*(t+2)^2 + (180323)*(t+2)^0)^2 * (t+1)^17 * (4*t+7)^2 = 90346506665101202439 + 1568543867584324803711*t^1 + 13001551996152510259632*t^2 + 68470480531944362914632*t^3 + 257196687675866702199252*t^4 + 733365046006332432651540*t^5 + 1649338251077298426962184*t^6 + 3001003368986692011328968*t^7 + 4495804601467059067058938*t^8 + 5614002811542106862461674*t^9 + 5893379831090068486996248*t^10 + 5230235085179446190309832*t^11 + 3936719862722845718459892*t^12 + 2515724058797090427140532*t^13 + 1363540225472748692721528*t^14 + 624852631289386475010648*t^15 + 240753762016122737657241*t^16 + 77334104949302297698560*t^17 + 20457371045480043393792*t^18 + 4379350714922898063360*t^19 + 739663313231803564032*t^20 + 94862499008602963968*t^21 + 8680844609533771776*t^22 + 504888993691729920*t^23 + 14024694269214720*t^24 := by ring
  have : 0 ≤ 90346506665101202439 + 1568543867584324803711*t^1 + 13001551996152510259632*t^2 + 68470480531944362914632*t^3 + 257196687675866702199252*t^4 + 733365046006332432651540*t^5 + 1649338251077298426962184*t^6 + 3001003368986692011328968*t^7 + 4495804601467059067058938*t^8 + 5614002811542106862461674*t^9 + 5893379831090068486996248*t^10 + 5230235085179446190309832*t^11 + 3936719862722845718459892*t^12 + 2515724058797090427140532*t^13 + 1363540225472748692721528*t^14 + 624852631289386475010648*t^15 + 240753762016122737657241*t^16 + 77334104949302297698560*t^17 + 20457371045480043393792*t^18 + 4379350714922898063360*t^19 + 739663313231803564032*t^20 + 94862499008602963968*t^21 + 8680844609533771776*t^22 + 504888993691729920*t^23 + 14024694269214720*t^24 := by positivity
  linarith

theorem poly5 (t : ℝ) (ht : 0 ≤ t) : ((8589934592)*(t+1)^10 + (-134217728)*(t+1)^8 + (22020096)*(t+1)^6 + (-10993664)*(t+1)^4 + (11540672)*(t+1)^2 + (-20898423)*(t+1)^0)^2 * (t+2)^21 * (4*t+5)^2 ≤ ((8589934592)*(t+2)^10 + (-134217728)*(t+2)^8 + (22020096)*(t+2)^6 + (-10993664)*(t+2)^4 + (11540672)*(t+2)^2 + (-20898423)*(t+2)^0)^2 * (t+1)^21 * (4*t+7)^2 := by
  have e : ((8589934592)*(t+2)^10 + (-134217728)*(t+2)^8 + (22020096)*(t+2)^6 + (-10993664)*(t+2)^4 + (11540672)*(t+2)^2 + (-20898423)*(t+2)^0)^2 * (t+1)^21 * (4*t+7)^2 - ((8589934592)*(t+1)^10 + (-134217728)*(t+1)^8 + (22020096)*(t+1)^6 + (-10993664)*(t+1)^4 + (11540672)*(t+1)^2 + (-20898423)*(t+1)^0)^2 * (t+2)^21 * (4*t+5)^2 = 12617165809208080478570625 + 271846407870828321579586125*t^1 + 2822363528699515173009161850*t^2 + 18806092073766417853974136050*t^3 + 90366460966707548357041704945*t^4 + 333572804449764360394419835605*t^5 + 983894284062926915555256261984*t^6 + 2381393694202031858208068706504*t^7 + 4820027604274433637847165203362*t^8 + 8272391912257571760415325473050*t^9 + 12164175775825298976296205610780*t^10 + 15445188956406850481516643359244*t^11 + 17032952151558320898892793642634*t^12 + 16383430365815533588979111074002*t^13 + 13784254262474907715234153189960*t^14 + 10161357763979234379412987411800*t^15 + 6566823364674142622377883797277*t^16 + 3718515886624521777666424406697*t^17 + 1841996227727525115697808790186*t^18 + 795953498747623597517641916490*t^19 + 298782095766106691920954645035*t^20 + 96868346643289912798810359360*t^21 + 26915350899395684771408969280*t^22 + 6343387452128944101046026240*t^23 + 1250651969771625911006576640*t^24 + 202420222141497119043747840*t^25 + 26190422999262695915520000*t^26 + 2604498834501807290449920*t^27 + 186884658076356402216960*t^28 + 8611915935476455833600*t^29 + 191375909677254574080*t^30 := by ring
  have : 0 ≤ 12617165809208080478570625 + 271846407870828321579586125*t^1 + 2822363528699515173009161850*t^2 + 18806092073766417853974136050*t^3 + 90366460966707548357041704945*t^4 + 333572804449764360394419835605*t^5 + 983894284062926915555256261984*t^6 + 2381393694202031858208068706504*t^7 + 4820027604274433637847165203362*t^8 + 8272391912257571760415325473050*t^9 + 12164175775825298976296205610780*t^10 + 15445188956406850481516643359244*t^11 + 17032952151558320898892793642634*t^12 + 16383430365815533588979111074002*t^13 + 13784254262474907715234153189960*t^14 + 10161357763979234379412987411800*t^15 + 6566823364674142622377883797277*t^16 + 3718515886624521777666424406697*t^17 + 1841996227727525115697808790186*t^18 + 795953498747623597517641916490*t^19 + 298782095766106691920954645035*t^20 + 96868346643289912798810359360*t^21 + 26915350899395684771408969280*t^22 + 6343387452128944101046026240*t^23 + 1250651969771625911006576640*t^24 + 202420222141497119043747840*t^25 + 26190422999262695915520000*t^26 + 2604498834501807290449920*t^27 + 186884658076356402216960*t^28 + 8611915935476455833600*t^29 + 191375909677254574080*t^30 := by positivity
  linarith

theorem poly6 (t : ℝ) (ht : 0 ≤ t) : ((1099511627776)*(t+2)^12 + (-17179869184)*(t+2)^10 + (2818572288)*(t+2)^8 + (-1407188992)*(t+2)^6 + (1477206016)*(t+2)^4 + (-2674998144)*(t+2)^2 + (7426362705)*(t+2)^0)^2 * (t+1)^25 * (4*t+7)^2 ≤ ((1099511627776)*(t+1)^12 + (-17179869184)*(t+1)^10 + (2818572288)*(t+1)^8 + (-1407188992)*(t+1)^6 + (1477206016)*(t+1)^4 + (-2674998144)*(t+1)^2 + (7426362705)*(t+1)^0)^2 * (t+2)^25 * (4*t+5)^2 := by
  have e : ((1099511627776)*(t+1)^12 + (-17179869184)*(t+1)^10 + (2818572288)*(t+1)^8 + (-1407188992)*(t+1)^6 + (1477206016)*(t+1)^4 + (-2674998144)*(t+1)^2 + (7426362705)*(t+1)^0)^2 * (t+2)^25 * (4*t+5)^2 - ((1099511627776)*(t+2)^12 + (-17179869184)*(t+2)^10 + (2818572288)*(t+2)^8 + (-1407188992)*(t+2)^6 + (1477206016)*(t+2)^4 + (-2674998144)*(t+2)^2 + (7426362705)*(t+2)^0)^2 * (t+1)^25 * (4*t+7)^2 = 10223316370463455973881079945775 + 262050653446233983154232628903775*t^1 + 3259668032836745814093579575791500*t^2 + 26207554988082852645990159667102740*t^3 + 153060872014206027987462230261038230*t^4 + 691974773414170233763572023768671590*t^5 + 2519999188678843187996262561522960804*t^6 + 7595868009518999492533169077427914308*t^7 + 19324081305082820666643701934155311753*t^8 + 42101321760739130322627686343830192169*t^9 + 79436213221458967547899424445687816880*t^10 + 130932214444173365047439906853083286168*t^11 + 189824352015209318747970520607073422548*t^12 + 243375637881804183006622489843290335604*t^13 + 277112587586732275898826953171019009640*t^14 + 281125699140049311762344234209925805288*t^15 + 254716852922713500672711670478316768433*t^16 + 206468047647592737316922198261722884129*t^17 + 149870274791385354707159327637812247820*t^18 + 97452820064548674705532021505164477668*t^19 + 56749564150753145980725691620607638838*t^20 + 29567326572865436240704097305713116454*t^21 + 13760659550076738519486097402647924820*t^22 + 5707127817193592526099441564427159428*t^23 + 2102600461179358419404899656070035673*t^24 + 685240248746332954014121487448722304*t^25 + 196495844234467001842377717548198016*t^26 + 49241929492315170577999924248821760*t^27 + 10691207929526527512355942928179200*t^28 + 1988816707674399491790973068902400*t^29 + 312408437497204889503637302149120*t^30 + 40639154637838512208551188889600*t^31 + 4260725846915720419154004541440*t^32 + 345971212508429946503508787200*t^33 + 20416834317921340023531110400*t^34 + 779033431602866548679639040*t^35 + 14426545029682713864437760*t^36 := by ring
  have : 0 ≤ 10223316370463455973881079945775 + 262050653446233983154232628903775*t^1 + 3259668032836745814093579575791500*t^2 + 26207554988082852645990159667102740*t^3 + 153060872014206027987462230261038230*t^4 + 691974773414170233763572023768671590*t^5 + 2519999188678843187996262561522960804*t^6 + 7595868009518999492533169077427914308*t^7 + 19324081305082820666643701934155311753*t^8 + 42101321760739130322627686343830192169*t^9 + 79436213221458967547899424445687816880*t^10 + 130932214444173365047439906853083286168*t^11 + 189824352015209318747970520607073422548*t^12 + 243375637881804183006622489843290335604*t^13 + 277112587586732275898826953171019009640*t^14 + 281125699140049311762344234209925805288*t^15 + 254716852922713500672711670478316768433*t^16 + 206468047647592737316922198261722884129*t^17 + 149870274791385354707159327637812247820*t^18 + 97452820064548674705532021505164477668*t^19 + 56749564150753145980725691620607638838*t^20 + 29567326572865436240704097305713116454*t^21 + 13760659550076738519486097402647924820*t^22 + 5707127817193592526099441564427159428*t^23 + 2102600461179358419404899656070035673*t^24 + 685240248746332954014121487448722304*t^25 + 196495844234467001842377717548198016*t^26 + 49241929492315170577999924248821760*t^27 + 10691207929526527512355942928179200*t^28 + 1988816707674399491790973068902400*t^29 + 312408437497204889503637302149120*t^30 + 40639154637838512208551188889600*t^31 + 4260725846915720419154004541440*t^32 + 345971212508429946503508787200*t^33 + 20416834317921340023531110400*t^34 + 779033431602866548679639040*t^35 + 14426545029682713864437760*t^36 := by positivity
  linarith

theorem poly7 (t : ℝ) (ht : 0 ≤ t) : ((70368744177664)*(t+1)^14 + (-1099511627776)*(t+1)^12 + (180388626432)*(t+1)^10 + (-90060095488)*(t+1)^8 + (94541185024)*(t+1)^6 + (-171199881216)*(t+1)^4 + (475287213120)*(t+1)^2 + (-1874409467055)*(t+1)^0)^2 * (t+2)^29 * (4*t+5)^2 ≤ ((70368744177664)*(t+2)^14 + (-1099511627776)*(t+2)^12 + (180388626432)*(t+2)^10 + (-90060095488)*(t+2)^8 + (94541185024)*(t+2)^6 + (-171199881216)*(t+2)^4 + (475287213120)*(t+2)^2 + (-1874409467055)*(t+2)^0)^2 * (t+1)^29 * (4*t+7)^2 := by
  have e : ((70368744177664)*(t+2)^14 + (-1099511627776)*(t+2)^12 + (180388626432)*(t+2)^10 + (-90060095488)*(t+2)^8 + (94541185024)*(t+2)^6 + (-171199881216)*(t+2)^4 + (475287213120)*(t+2)^2 + (-1874409467055)*(t+2)^0)^2 * (t+1)^29 * (4*t+7)^2 - ((70368744177664)*(t+1)^14 + (-1099511627776)*(t+1)^12 + (180388626432)*(t+1)^10 + (-90060095488)*(t+1)^8 + (94541185024)*(t+1)^6 + (-171199881216)*(t+1)^4 + (475287213120)*(t+1)^2 + (-1874409467055)*(t+1)^0)^2 * (t+2)^29 * (4*t+5)^2 = 2792576387618152789225732192049180625 + 83551024065524669589463619993016625125*t^1 + 1214632632721166457191259563903813056350*t^2 + 11447159364122711558737187262651810106950*t^3 + 78682578247179467300449792171120027658535*t^4 + 420617282114619144258702332180520218734395*t^5 + 1820698700631693118068565359236897427303396*t^6 + 6559922366217028975056070052888751253841628*t^7 + 20068712967825469531729053476961330808422497*t^8 + 52918366579778687168244459807300796705060389*t^9 + 121673169368237898665831168947215521692204098*t^10 + 246186561625252464080303027564394730351193802*t^11 + 441578100998758590417367773973528623388806783*t^12 + 706335339990151138801871447142399896565117891*t^13 + 1012467891476690057442358527583345465480553536*t^14 + 1305675583876112368659937880376480408290738520*t^15 + 1519725764931099471905103766565189532116062875*t^16 + 1600614428813711531473348364824250734015979415*t^17 + 1528530736379459132954566278465961116326734530*t^18 + 1325520693136615655385857544473996637669758970*t^19 + 1044926059208480384315956656549525185963778045*t^20 + 749287126932253070379353275910077153062356985*t^21 + 488847877771775440860296429162426040857626260*t^22 + 290125187435683307711577920202741937381170300*t^23 + 156541292037588162648667239854648729929399635*t^24 + 76712243465437991347640387960883899730305775*t^25 + 34092268670120181131615539282127531878787374*t^26 + 13713552297784849370669542975581935938223262*t^27 + 4980267273834213393699177903495172628888883*t^28 + 1627768758809846935159123229253508579632576*t^29 + 476951113708396031318425395491615272473792*t^30 + 124683644727963735127235747900099727065088*t^31 + 28908976415036875364789943454957123100672*t^32 + 5901611764960069160251928538877747789824*t^33 + 1051147742033613998361607319499242471424*t^34 + 161472534834685221458289900969346990080*t^35 + 21076367151153151351109496851681771520*t^36 + 2291606306148417261655592762270023680*t^37 + 201938118347728678077102612597964800*t^38 + 13854987521427715453427387675443200*t^39 + 694325679742702765260323401236480*t^40 + 22605327856206870294465053982720*t^41 + 358814727876299528483572285440*t^42 := by ring
  have : 0 ≤ 2792576387618152789225732192049180625 + 83551024065524669589463619993016625125*t^1 + 1214632632721166457191259563903813056350*t^2 + 11447159364122711558737187262651810106950*t^3 + 78682578247179467300449792171120027658535*t^4 + 420617282114619144258702332180520218734395*t^5 + 1820698700631693118068565359236897427303396*t^6 + 6559922366217028975056070052888751253841628*t^7 + 20068712967825469531729053476961330808422497*t^8 + 52918366579778687168244459807300796705060389*t^9 + 121673169368237898665831168947215521692204098*t^10 + 246186561625252464080303027564394730351193802*t^11 + 441578100998758590417367773973528623388806783*t^12 + 706335339990151138801871447142399896565117891*t^13 + 1012467891476690057442358527583345465480553536*t^14 + 1305675583876112368659937880376480408290738520*t^15 + 1519725764931099471905103766565189532116062875*t^16 + 1600614428813711531473348364824250734015979415*t^17 + 1528530736379459132954566278465961116326734530*t^18 + 1325520693136615655385857544473996637669758970*t^19 + 1044926059208480384315956656549525185963778045*t^20 + 749287126932253070379353275910077153062356985*t^21 + 488847877771775440860296429162426040857626260*t^22 + 290125187435683307711577920202741937381170300*t^23 + 156541292037588162648667239854648729929399635*t^24 + 76712243465437991347640387960883899730305775*t^25 + 34092268670120181131615539282127531878787374*t^26 + 13713552297784849370669542975581935938223262*t^27 + 4980267273834213393699177903495172628888883*t^28 + 1627768758809846935159123229253508579632576*t^29 + 476951113708396031318425395491615272473792*t^30 + 124683644727963735127235747900099727065088*t^31 + 28908976415036875364789943454957123100672*t^32 + 5901611764960069160251928538877747789824*t^33 + 1051147742033613998361607319499242471424*t^34 + 161472534834685221458289900969346990080*t^35 + 21076367151153151351109496851681771520*t^36 + 2291606306148417261655592762270023680*t^37 + 201938118347728678077102612597964800*t^38 + 13854987521427715453427387675443200*t^39 + 694325679742702765260323401236480*t^40 + 22605327856206870294465053982720*t^41 + 358814727876299528483572285440*t^42 := by positivity
  linarith

/-- The coefficients of the series in `1 / (z + 1/4)^2`. -/
noncomputable def cf : ℕ → ℝ
  | 0 => 1
  | 1 => -1 / 64
  | 2 => 21 / 8192
  | 3 => -671 / 524288
  | 4 => 180323 / 134217728
  | 5 => -20898423 / 8589934592
  | 6 => 7426362705 / 1099511627776
  | 7 => -1874409467055 / 70368744177664
  | _ => 0

noncomputable def cser (m : ℕ) (u : ℝ) : ℝ := ∑ j ∈ Finset.range (m + 1), cf j / u ^ (2 * j)

theorem fracLe {u a b d : ℝ} (u0 : 0 < u) (d0 : d ≠ 0) (m : ℕ) (h : a ^ 2 * (u + 1) ^ (4 * m + 1) * (4 * u + 1) ^ 2 ≤ b ^ 2 * u ^ (4 * m + 1) * (4 * u + 3) ^ 2) :
    (a / (d * u ^ (2 * m))) ^ 2 * (u + 1) * (u + 1 / 4) ^ 2 ≤ (b / (d * (u + 1) ^ (2 * m))) ^ 2 * u * (u + 3 / 4) ^ 2 := by
  have e1 : (a / (d * u ^ (2 * m))) ^ 2 * (u + 1) * (u + 1 / 4) ^ 2 = a ^ 2 * (u + 1) ^ (4 * m + 1) * (4 * u + 1) ^ 2 / (16 * d ^ 2 * u ^ (4 * m) * (u + 1) ^ (4 * m)) := by
    rw [pow_succ (u + 1) (4 * m), show 4 * m = 2 * m * 2 by ring, pow_mul u (2 * m) 2, pow_mul (u + 1) (2 * m) 2]; field_simp; ring
  have e2 : (b / (d * (u + 1) ^ (2 * m))) ^ 2 * u * (u + 3 / 4) ^ 2 = b ^ 2 * u ^ (4 * m + 1) * (4 * u + 3) ^ 2 / (16 * d ^ 2 * u ^ (4 * m) * (u + 1) ^ (4 * m)) := by
    rw [pow_succ u (4 * m), show 4 * m = 2 * m * 2 by ring, pow_mul u (2 * m) 2, pow_mul (u + 1) (2 * m) 2]; field_simp; ring
  rw [e1, e2]
  exact div_le_div_of_nonneg_right h (by positivity)

theorem fracGe {u a b d : ℝ} (u0 : 0 < u) (d0 : d ≠ 0) (m : ℕ) (h : b ^ 2 * u ^ (4 * m + 1) * (4 * u + 3) ^ 2 ≤ a ^ 2 * (u + 1) ^ (4 * m + 1) * (4 * u + 1) ^ 2) :
    (b / (d * (u + 1) ^ (2 * m))) ^ 2 * u * (u + 3 / 4) ^ 2 ≤ (a / (d * u ^ (2 * m))) ^ 2 * (u + 1) * (u + 1 / 4) ^ 2 := by
  have e1 : (a / (d * u ^ (2 * m))) ^ 2 * (u + 1) * (u + 1 / 4) ^ 2 = a ^ 2 * (u + 1) ^ (4 * m + 1) * (4 * u + 1) ^ 2 / (16 * d ^ 2 * u ^ (4 * m) * (u + 1) ^ (4 * m)) := by
    rw [pow_succ (u + 1) (4 * m), show 4 * m = 2 * m * 2 by ring, pow_mul u (2 * m) 2, pow_mul (u + 1) (2 * m) 2]; field_simp; ring
  have e2 : (b / (d * (u + 1) ^ (2 * m))) ^ 2 * u * (u + 3 / 4) ^ 2 = b ^ 2 * u ^ (4 * m + 1) * (4 * u + 3) ^ 2 / (16 * d ^ 2 * u ^ (4 * m) * (u + 1) ^ (4 * m)) := by
    rw [pow_succ u (4 * m), show 4 * m = 2 * m * 2 by ring, pow_mul u (2 * m) 2, pow_mul (u + 1) (2 * m) 2]; field_simp; ring
  rw [e1, e2]
  exact div_le_div_of_nonneg_right h (by positivity)

theorem step1 (u : ℝ) (hu : 1 ≤ u) : cser 1 u ^ 2 * (u + 1) * (u + 1 / 4) ^ 2 ≤ cser 1 (u + 1) ^ 2 * u * (u + 3 / 4) ^ 2 := by
  have hp := poly1 (u - 1) (by linarith)
  rw [show u - 1 + 2 = u + 1 by ring, show u - 1 + 1 = u by ring, show 4 * (u - 1) + 7 = 4 * u + 3 by ring, show 4 * (u - 1) + 5 = 4 * u + 1 by ring] at hp
  have s (v : ℝ) (hv : 0 < v) : cser 1 v = ((64)*v^2 + (-1)*v^0) / (64 * v ^ 2) := by
    unfold cser; simp only [Finset.sum_range_succ, Finset.sum_range_zero, cf]; field_simp; ring
  have u0 : 0 < u := by linarith
  rw [s u u0, s (u + 1) (by linarith)]
  generalize ((64)*u^2 + (-1)*u^0) = a at hp ⊢
  generalize ((64)*(u + 1)^2 + (-1)*(u + 1)^0) = b at hp ⊢
  exact fracLe u0 (by norm_num) 1 hp

theorem step2 (u : ℝ) (hu : 1 ≤ u) : cser 2 (u + 1) ^ 2 * u * (u + 3 / 4) ^ 2 ≤ cser 2 u ^ 2 * (u + 1) * (u + 1 / 4) ^ 2 := by
  have hp := poly2 (u - 1) (by linarith)
  rw [show u - 1 + 2 = u + 1 by ring, show u - 1 + 1 = u by ring, show 4 * (u - 1) + 7 = 4 * u + 3 by ring, show 4 * (u - 1) + 5 = 4 * u + 1 by ring] at hp
  have s (v : ℝ) (hv : 0 < v) : cser 2 v = ((8192)*v^4 + (-128)*v^2 + (21)*v^0) / (8192 * v ^ 4) := by
    unfold cser; simp only [Finset.sum_range_succ, Finset.sum_range_zero, cf]; field_simp; ring
  have u0 : 0 < u := by linarith
  rw [s u u0, s (u + 1) (by linarith)]
  generalize ((8192)*u^4 + (-128)*u^2 + (21)*u^0) = a at hp ⊢
  generalize ((8192)*(u + 1)^4 + (-128)*(u + 1)^2 + (21)*(u + 1)^0) = b at hp ⊢
  exact fracGe u0 (by norm_num) 2 hp

theorem step3 (u : ℝ) (hu : 1 ≤ u) : cser 3 u ^ 2 * (u + 1) * (u + 1 / 4) ^ 2 ≤ cser 3 (u + 1) ^ 2 * u * (u + 3 / 4) ^ 2 := by
  have hp := poly3 (u - 1) (by linarith)
  rw [show u - 1 + 2 = u + 1 by ring, show u - 1 + 1 = u by ring, show 4 * (u - 1) + 7 = 4 * u + 3 by ring, show 4 * (u - 1) + 5 = 4 * u + 1 by ring] at hp
  have s (v : ℝ) (hv : 0 < v) : cser 3 v = ((524288)*v^6 + (-8192)*v^4 + (1344)*v^2 + (-671)*v^0) / (524288 * v ^ 6) := by
    unfold cser; simp only [Finset.sum_range_succ, Finset.sum_range_zero, cf]; field_simp; ring
  have u0 : 0 < u := by linarith
  rw [s u u0, s (u + 1) (by linarith)]
  generalize ((524288)*u^6 + (-8192)*u^4 + (1344)*u^2 + (-671)*u^0) = a at hp ⊢
  generalize ((524288)*(u + 1)^6 + (-8192)*(u + 1)^4 + (1344)*(u + 1)^2 + (-671)*(u + 1)^0) = b at hp ⊢
  exact fracLe u0 (by norm_num) 3 hp

theorem step4 (u : ℝ) (hu : 1 ≤ u) : cser 4 (u + 1) ^ 2 * u * (u + 3 / 4) ^ 2 ≤ cser 4 u ^ 2 * (u + 1) * (u + 1 / 4) ^ 2 := by
  have hp := poly4 (u - 1) (by linarith)
  rw [show u - 1 + 2 = u + 1 by ring, show u - 1 + 1 = u by ring, show 4 * (u - 1) + 7 = 4 * u + 3 by ring, show 4 * (u - 1) + 5 = 4 * u + 1 by ring] at hp
  have s (v : ℝ) (hv : 0 < v) : cser 4 v = ((134217728)*v^8 + (-2097152)*v^6 + (344064)*v^4 + (-171776)*v^2 + (180323)*v^0) / (134217728 * v ^ 8) := by
    unfold cser; simp only [Finset.sum_range_succ, Finset.sum_range_zero, cf]; field_simp; ring
  have u0 : 0 < u := by linarith
  rw [s u u0, s (u + 1) (by linarith)]
  generalize ((134217728)*u^8 + (-2097152)*u^6 + (344064)*u^4 + (-171776)*u^2 + (180323)*u^0) = a at hp ⊢
  generalize ((134217728)*(u + 1)^8 + (-2097152)*(u + 1)^6 + (344064)*(u + 1)^4 + (-171776)*(u + 1)^2 + (180323)*(u + 1)^0) = b at hp ⊢
  exact fracGe u0 (by norm_num) 4 hp

theorem step5 (u : ℝ) (hu : 1 ≤ u) : cser 5 u ^ 2 * (u + 1) * (u + 1 / 4) ^ 2 ≤ cser 5 (u + 1) ^ 2 * u * (u + 3 / 4) ^ 2 := by
  have hp := poly5 (u - 1) (by linarith)
  rw [show u - 1 + 2 = u + 1 by ring, show u - 1 + 1 = u by ring, show 4 * (u - 1) + 7 = 4 * u + 3 by ring, show 4 * (u - 1) + 5 = 4 * u + 1 by ring] at hp
  have s (v : ℝ) (hv : 0 < v) : cser 5 v = ((8589934592)*v^10 + (-134217728)*v^8 + (22020096)*v^6 + (-10993664)*v^4 + (11540672)*v^2 + (-20898423)*v^0) / (8589934592 * v ^ 10) := by
    unfold cser; simp only [Finset.sum_range_succ, Finset.sum_range_zero, cf]; field_simp; ring
  have u0 : 0 < u := by linarith
  rw [s u u0, s (u + 1) (by linarith)]
  generalize ((8589934592)*u^10 + (-134217728)*u^8 + (22020096)*u^6 + (-10993664)*u^4 + (11540672)*u^2 + (-20898423)*u^0) = a at hp ⊢
  generalize ((8589934592)*(u + 1)^10 + (-134217728)*(u + 1)^8 + (22020096)*(u + 1)^6 + (-10993664)*(u + 1)^4 + (11540672)*(u + 1)^2 + (-20898423)*(u + 1)^0) = b at hp ⊢
  exact fracLe u0 (by norm_num) 5 hp

theorem step6 (u : ℝ) (hu : 1 ≤ u) : cser 6 (u + 1) ^ 2 * u * (u + 3 / 4) ^ 2 ≤ cser 6 u ^ 2 * (u + 1) * (u + 1 / 4) ^ 2 := by
  have hp := poly6 (u - 1) (by linarith)
  rw [show u - 1 + 2 = u + 1 by ring, show u - 1 + 1 = u by ring, show 4 * (u - 1) + 7 = 4 * u + 3 by ring, show 4 * (u - 1) + 5 = 4 * u + 1 by ring] at hp
  have s (v : ℝ) (hv : 0 < v) : cser 6 v = ((1099511627776)*v^12 + (-17179869184)*v^10 + (2818572288)*v^8 + (-1407188992)*v^6 + (1477206016)*v^4 + (-2674998144)*v^2 + (7426362705)*v^0) / (1099511627776 * v ^ 12) := by
    unfold cser; simp only [Finset.sum_range_succ, Finset.sum_range_zero, cf]; field_simp; ring
  have u0 : 0 < u := by linarith
  rw [s u u0, s (u + 1) (by linarith)]
  generalize ((1099511627776)*u^12 + (-17179869184)*u^10 + (2818572288)*u^8 + (-1407188992)*u^6 + (1477206016)*u^4 + (-2674998144)*u^2 + (7426362705)*u^0) = a at hp ⊢
  generalize ((1099511627776)*(u + 1)^12 + (-17179869184)*(u + 1)^10 + (2818572288)*(u + 1)^8 + (-1407188992)*(u + 1)^6 + (1477206016)*(u + 1)^4 + (-2674998144)*(u + 1)^2 + (7426362705)*(u + 1)^0) = b at hp ⊢
  exact fracGe u0 (by norm_num) 6 hp

theorem step7 (u : ℝ) (hu : 1 ≤ u) : cser 7 u ^ 2 * (u + 1) * (u + 1 / 4) ^ 2 ≤ cser 7 (u + 1) ^ 2 * u * (u + 3 / 4) ^ 2 := by
  have hp := poly7 (u - 1) (by linarith)
  rw [show u - 1 + 2 = u + 1 by ring, show u - 1 + 1 = u by ring, show 4 * (u - 1) + 7 = 4 * u + 3 by ring, show 4 * (u - 1) + 5 = 4 * u + 1 by ring] at hp
  have s (v : ℝ) (hv : 0 < v) : cser 7 v = ((70368744177664)*v^14 + (-1099511627776)*v^12 + (180388626432)*v^10 + (-90060095488)*v^8 + (94541185024)*v^6 + (-171199881216)*v^4 + (475287213120)*v^2 + (-1874409467055)*v^0) / (70368744177664 * v ^ 14) := by
    unfold cser; simp only [Finset.sum_range_succ, Finset.sum_range_zero, cf]; field_simp; ring
  have u0 : 0 < u := by linarith
  rw [s u u0, s (u + 1) (by linarith)]
  generalize ((70368744177664)*u^14 + (-1099511627776)*u^12 + (180388626432)*u^10 + (-90060095488)*u^8 + (94541185024)*u^6 + (-171199881216)*u^4 + (475287213120)*u^2 + (-1874409467055)*u^0) = a at hp ⊢
  generalize ((70368744177664)*(u + 1)^14 + (-1099511627776)*(u + 1)^12 + (180388626432)*(u + 1)^10 + (-90060095488)*(u + 1)^8 + (94541185024)*(u + 1)^6 + (-171199881216)*(u + 1)^4 + (475287213120)*(u + 1)^2 + (-1874409467055)*(u + 1)^0) = b at hp ⊢
  exact fracLe u0 (by norm_num) 7 hp

theorem cser_pos (m : ℕ) (hm : m ≤ 7) (u : ℝ) (hu : 1 ≤ u) : 0 < cser m u := by
  have h (j : ℕ) : 0 ≤ (u ^ j)⁻¹ ∧ (u ^ j)⁻¹ ≤ 1 := ⟨by positivity, inv_le_one_of_one_le₀ (one_le_pow₀ hu)⟩
  have h1 := h 2
  have h2 := h 4
  have h3 := h 6
  have h4 := h 8
  have h5 := h 10
  have h6 := h 12
  have h7 := h 14
  unfold cser
  interval_cases m <;> simp only [Finset.sum_range_succ, Finset.sum_range_zero, cf, div_eq_mul_inv, Nat.reduceMul] <;> norm_num <;> linarith [h1.1, h1.2]

theorem cser_lim (m : ℕ) (u : ℝ) : Tendsto (fun n : ℕ => cser m (u + n)) atTop (𝓝 1) := by
  have h : Tendsto (fun n : ℕ => u + (n : ℝ)) atTop atTop := tendsto_atTop_add_const_left _ _ tendsto_natCast_atTop_atTop
  induction m with
  | zero => simp [cser, cf]
  | succ m ih =>
    have e : (fun n : ℕ => cser (m + 1) (u + n)) = fun n : ℕ => cser m (u + n) + cf (m + 1) / (u + n) ^ (2 * (m + 1)) := by
      funext n; unfold cser; rw [Finset.sum_range_succ _ (m + 1)]
    rw [e]
    have : Tendsto (fun n : ℕ => cf (m + 1) / (u + n) ^ (2 * (m + 1))) atTop (𝓝 0) := Tendsto.div_atTop tendsto_const_nhds ((tendsto_pow_atTop (by omega)).comp h)
    simpa using ih.add this

theorem gr_pos {z : ℝ} (hz : -1 / 2 < z) : 0 < gammaRatio z := div_pos (Gamma_pos_of_pos (by linarith)) (Gamma_pos_of_pos (by linarith))

theorem gr_succ {z : ℝ} (hz : -1 / 2 < z) : gammaRatio (z + 1) * (z + 1) = gammaRatio z * (z + 1 / 2) := by
  unfold gammaRatio
  have g : Gamma (z + 1) ≠ 0 := (Gamma_pos_of_pos (by linarith)).ne'
  have z1 : z + 1 ≠ 0 := by linarith
  rw [show z + 1 + 1 / 2 = z + 1 / 2 + 1 by ring, Gamma_add_one (by linarith), Gamma_add_one z1]
  field_simp

/-- By the logarithmic convexity of the Gamma function. -/
theorem gamma_mid {s : ℝ} (hs : 0 < s) : Gamma (s + 1 / 2) ^ 2 ≤ Gamma s * Gamma (s + 1) := by
  have h := Gamma_mul_add_mul_le_rpow_Gamma_mul_rpow_Gamma (s := s) (t := s + 1) hs (by linarith) (a := 1 / 2) (b := 1 / 2) (by norm_num) (by norm_num) (by norm_num)
  rw [show 1 / 2 * s + 1 / 2 * (s + 1) = s + 1 / 2 by ring, ← sqrt_eq_rpow, ← sqrt_eq_rpow] at h
  have g1 := Gamma_pos_of_pos hs
  have g2 := Gamma_pos_of_pos (show 0 < s + 1 by linarith)
  calc _ ≤ (√(Gamma s) * √(Gamma (s + 1))) ^ 2 := pow_le_pow_left₀ (Gamma_pos_of_pos (by linarith)).le h 2
    _ = _ := by rw [mul_pow, sq_sqrt g1.le, sq_sqrt g2.le]

theorem gr_upper {z : ℝ} (hz : 0 < z) : gammaRatio z ^ 2 * z ≤ 1 := by
  have h := gamma_mid hz
  have g := Gamma_pos_of_pos (show 0 < z + 1 by linarith)
  unfold gammaRatio
  rw [div_pow, div_mul_eq_mul_div, div_le_one (by positivity)]
  calc _ ≤ Gamma z * Gamma (z + 1) * z := mul_le_mul_of_nonneg_right h hz.le
    _ = _ := by rw [Gamma_add_one hz.ne']; ring

theorem gr_lower {z : ℝ} (hz : 0 < z) : 1 ≤ gammaRatio z ^ 2 * (z + 1 / 2) := by
  have h := gamma_mid (s := z + 1 / 2) (by linarith)
  have g := Gamma_pos_of_pos (show 0 < z + 1 by linarith)
  unfold gammaRatio
  rw [div_pow, div_mul_eq_mul_div, one_le_div (by positivity)]
  rw [show z + 1 / 2 + 1 / 2 = z + 1 by ring, Gamma_add_one (s := z + 1 / 2) (by linarith)] at h
  calc _ ≤ _ := h
    _ = _ := by ring

theorem gr_lim {u : ℝ} (hu : 1 ≤ u) : Tendsto (fun n : ℕ => gammaRatio (u - 1 / 4 + n) ^ 2 * (u + n)) atTop (𝓝 1) := by
  have h : Tendsto (fun n : ℕ => u - 1 / 4 + (n : ℝ)) atTop atTop := tendsto_atTop_add_const_left _ _ tendsto_natCast_atTop_atTop
  have h2 : Tendsto (fun n : ℕ => u + 1 / 4 + (n : ℝ)) atTop atTop := tendsto_atTop_add_const_left _ _ tendsto_natCast_atTop_atTop
  have l1 : Tendsto (fun n : ℕ => 1 - 1 / 4 / (u + 1 / 4 + (n : ℝ))) atTop (𝓝 1) := by simpa using tendsto_const_nhds.sub (Tendsto.div_atTop (tendsto_const_nhds (x := (1 / 4 : ℝ))) h2) (a := (1 : ℝ))
  have l2 : Tendsto (fun n : ℕ => 1 + 1 / 4 / (u - 1 / 4 + (n : ℝ))) atTop (𝓝 1) := by simpa using tendsto_const_nhds.add (Tendsto.div_atTop (tendsto_const_nhds (x := (1 / 4 : ℝ))) h) (a := (1 : ℝ))
  refine tendsto_of_tendsto_of_tendsto_of_le_of_le l1 l2 (fun n => ?_) fun n => ?_
  · have n0 : (0 : ℝ) ≤ n := Nat.cast_nonneg n
    have := gr_lower (z := u - 1 / 4 + n) (by linarith)
    have p : 0 < u + 1 / 4 + (n : ℝ) := by linarith
    beta_reduce
    rw [show 1 - 1 / 4 / (u + 1 / 4 + (n : ℝ)) = (u + n) / (u + 1 / 4 + n) by field_simp; ring, div_le_iff₀ p]
    rw [show u - 1 / 4 + (n : ℝ) + 1 / 2 = u + 1 / 4 + n by ring] at this
    nlinarith
  · have n0 : (0 : ℝ) ≤ n := Nat.cast_nonneg n
    have := gr_upper (z := u - 1 / 4 + n) (by linarith)
    have p : 0 < u - 1 / 4 + (n : ℝ) := by linarith
    beta_reduce
    rw [show 1 + 1 / 4 / (u - 1 / 4 + (n : ℝ)) = (u + n) / (u - 1 / 4 + n) by rw [eq_div_iff p.ne', add_mul, div_mul_cancel₀ _ p.ne']; ring, le_div_iff₀ p]
    nlinarith

/-- The squared ratio of the truncated series and the function. -/
noncomputable def rat (m : ℕ) (u : ℝ) : ℝ := cser m u ^ 2 / (gammaRatio (u - 1 / 4) ^ 2 * u)

theorem rat_succ (m : ℕ) {u : ℝ} (hu : 1 ≤ u) :
    rat m (u + 1) - rat m u = (cser m (u + 1) ^ 2 * u * (u + 3 / 4) ^ 2 - cser m u ^ 2 * (u + 1) * (u + 1 / 4) ^ 2) / (gammaRatio (u - 1 / 4) ^ 2 * u * (u + 1) * (u + 1 / 4) ^ 2) := by
  have e := gr_succ (z := u - 1 / 4) (by linarith)
  rw [show u - 1 / 4 + 1 = u + 3 / 4 by ring, show u - 1 / 4 + 1 / 2 = u + 1 / 4 by ring] at e
  have g := gr_pos (z := u - 1 / 4) (by linarith)
  have a1 : u + 3 / 4 ≠ 0 := by linarith
  have a2 : u + 1 / 4 ≠ 0 := by linarith
  have a3 : u + 1 ≠ 0 := by linarith
  have a4 : u ≠ 0 := by linarith
  have e' : gammaRatio (u + 3 / 4) = gammaRatio (u - 1 / 4) * (u + 1 / 4) / (u + 3 / 4) := by rw [eq_div_iff a1]; exact e
  unfold rat
  rw [show u + 1 - 1 / 4 = u + 3 / 4 by ring, e']
  field_simp

theorem rat_lim (m : ℕ) {u : ℝ} (hu : 1 ≤ u) : Tendsto (fun n : ℕ => rat m (u + n)) atTop (𝓝 1) := by
  have h := ((cser_lim m u).pow 2).div (gr_lim hu) one_ne_zero
  simp only [one_pow, div_one] at h
  refine h.congr fun n => ?_
  unfold rat
  rw [show u + (n : ℝ) - 1 / 4 = u - 1 / 4 + n by ring]; rfl

theorem lower_of_step (m : ℕ) (hs : ∀ u : ℝ, 1 ≤ u → cser m u ^ 2 * (u + 1) * (u + 1 / 4) ^ 2 ≤ cser m (u + 1) ^ 2 * u * (u + 3 / 4) ^ 2) (u : ℝ) (hu : 1 ≤ u) :
    cser m u ≤ gammaRatio (u - 1 / 4) * √u := by
  have g := gr_pos (z := u - 1 / 4) (by linarith)
  have mono : Monotone fun n : ℕ => rat m (u + n) := monotone_nat_of_le_succ fun n => by
    have n0 : (0 : ℝ) ≤ n := Nat.cast_nonneg n
    have := rat_succ m (u := u + n) (by linarith)
    have h2 := hs (u + n) (by linarith)
    have : 0 ≤ rat m (u + n + 1) - rat m (u + n) := by
      rw [this]; exact div_nonneg (by linarith) (by positivity)
    rw [Nat.cast_succ, ← add_assoc]; linarith
  have h := mono.ge_of_tendsto (rat_lim m hu) 0
  simp only [Nat.cast_zero, add_zero] at h
  unfold rat at h
  rw [div_le_one (by positivity)] at h
  refine le_of_sq_le_sq ?_ (by positivity)
  rwa [mul_pow, sq_sqrt (by linarith)]

theorem upper_of_step (m : ℕ) (hm : m ≤ 7) (hs : ∀ u : ℝ, 1 ≤ u → cser m (u + 1) ^ 2 * u * (u + 3 / 4) ^ 2 ≤ cser m u ^ 2 * (u + 1) * (u + 1 / 4) ^ 2) (u : ℝ) (hu : 1 ≤ u) :
    gammaRatio (u - 1 / 4) * √u ≤ cser m u := by
  have g := gr_pos (z := u - 1 / 4) (by linarith)
  have anti : Antitone fun n : ℕ => rat m (u + n) := antitone_nat_of_succ_le fun n => by
    have n0 : (0 : ℝ) ≤ n := Nat.cast_nonneg n
    have := rat_succ m (u := u + n) (by linarith)
    have h2 := hs (u + n) (by linarith)
    have : rat m (u + n + 1) - rat m (u + n) ≤ 0 := by
      rw [this]; exact div_nonpos_of_nonpos_of_nonneg (by linarith) (by positivity)
    rw [Nat.cast_succ, ← add_assoc]; linarith
  have h := anti.le_of_tendsto (rat_lim m hu) 0
  simp only [Nat.cast_zero, add_zero] at h
  unfold rat at h
  rw [one_le_div (by positivity)] at h
  refine le_of_sq_le_sq ?_ (cser_pos m hm u hu).le
  rwa [mul_pow, sq_sqrt (by linarith)]

/-- The series envelops the function: the error is at most the first term left out. -/
theorem series_error (m : ℕ) (h1 : 1 ≤ m) (h6 : m ≤ 6) (u : ℝ) (hu : 1 ≤ u) : |cser m u - gammaRatio (u - 1 / 4) * √u| ≤ |cf (m + 1)| / u ^ (2 * (m + 1)) := by
  have l1 := lower_of_step 1 step1 u hu
  have l2 := upper_of_step 2 (by norm_num) step2 u hu
  have l3 := lower_of_step 3 step3 u hu
  have l4 := upper_of_step 4 (by norm_num) step4 u hu
  have l5 := lower_of_step 5 step5 u hu
  have l6 := upper_of_step 6 (by norm_num) step6 u hu
  have l7 := lower_of_step 7 step7 u hu
  have e (k : ℕ) : cser (k + 1) u = cser k u + cf (k + 1) / u ^ (2 * (k + 1)) := by unfold cser; rw [Finset.sum_range_succ _ (k + 1)]
  have u0 : 0 < u := by linarith
  have key (k : ℕ) : (0 ≤ cf (k + 1) → cser k u ≤ gammaRatio (u - 1 / 4) * √u → gammaRatio (u - 1 / 4) * √u ≤ cser (k + 1) u → |cser k u - gammaRatio (u - 1 / 4) * √u| ≤ |cf (k + 1)| / u ^ (2 * (k + 1))) ∧
      (cf (k + 1) ≤ 0 → gammaRatio (u - 1 / 4) * √u ≤ cser k u → cser (k + 1) u ≤ gammaRatio (u - 1 / 4) * √u → |cser k u - gammaRatio (u - 1 / 4) * √u| ≤ |cf (k + 1)| / u ^ (2 * (k + 1))) := by
    constructor <;> intro c a b <;> rw [e] at b
    · rw [abs_of_nonneg c, abs_le]; constructor <;> linarith [div_nonneg c (pow_pos u0 (2 * (k + 1))).le]
    · rw [abs_of_nonpos c, abs_le, neg_div]; constructor <;> linarith [div_nonpos_of_nonpos_of_nonneg c (pow_pos u0 (2 * (k + 1))).le]
  interval_cases m
  · exact (key 1).1 (by simp only [cf]; norm_num) l1 l2
  · exact (key 2).2 (by simp only [cf]; norm_num) l2 l3
  · exact (key 3).1 (by simp only [cf]; norm_num) l3 l4
  · exact (key 4).2 (by simp only [cf]; norm_num) l4 l5
  · exact (key 5).1 (by simp only [cf]; norm_num) l5 l6
  · exact (key 6).2 (by simp only [cf]; norm_num) l6 l7

end FT.Props.Lc
