import Verif.Model.LegCheb
import Mathlib.Algebra.Order.Ring.Unbundled.Rat

/-!
# Model of the ratio of Gamma functions

`/repo/src/fmm_source.c`, lines 380-410 (`X(Lambda)`) and 413-505 (`X(LambdaI)`).
-/

namespace FT.Model.Lc
variable {K : Type*} [Field K] [LinearOrder K]

/-- Lines 389-408: the series in `z2`, cut at a place that depends on `z`. -/
def lambdaY (z z2 : K) : K :=
  let y := 1 - 1.5625e-02 * z2
  if 2014 < z then y else
  let zz := z2 * z2
  let y := y + 2.5634765625e-03 * zz
  if 141 < z then y else
  let zz := zz * z2
  let y := y - 1.2798309326171875e-03 * zz
  if 40 < z then y else
  let zz := zz * z2
  let y := y + 1.343511044979095458984375e-03 * zz
  if 20 < z then y else
  let zz := zz * z2
  let y := y - 2.4328966392204165e-03 * zz
  if 14 < z then y else
  let zz := zz * z2
  y + 6.754237533641572e-03 * zz

/-- `X(Lambda)`, lines 380-410, for a bounded number of nested calls; `none` if they do not suffice.  For small arguments the function calls itself; `s` and `z2` are used for large arguments only. -/
def lambda (sqrt : K → K) : ℕ → K → Option K
  | 0, _ => none
  | n + 1, z =>
    let zp := z + 0.25
    if z < 10 then (lambda sqrt n (z + 1)).bind fun l => divC (l * (z + 1)) (z + 0.5)
    else (divC 1 (sqrt zp)).bind fun s => (divC 1 (zp * zp)).bind fun z2 => some (lambdaY z z2 * s)

/-- The table of lines 415-502, in units of the eighteenth decimal place. -/
def lamInt : List ℕ := [
  1772453850905516100, 886226925452758050, 664670194089568510, 553891828407973800, 484655349856977060, 436189814871279340, 399840663632006040, 371280616229719920,
  348075577715362410, 328738045620064480, 312301143339061280, 298105636823649380, 285684568622664000, 274696700598715370, 264886104148761290, 256056567343802550,
  248054799614308740, 240759070213887900, 234071318263502110, 227911546730252050, 222213758061995750, 216922954298614910, 211992887155464580, 207384346130345760,
  203063838919296910, 199002562140910970, 195175589792047300, 191561227018120480, 188140490821368330, 184896689255482670, 181815077767891300, 178882576513570480,
  176087536255545930, 173419543281977060, 170869255880771510, 168428266511046200, 166088985031726120, 163844539288054150, 161688690086895540, 159615758162704570,
  157620561185670750, 155698359219991840, 153844807324515750, 152055914216091160, 150328006099999220, 148657694921110330, 147041850411098270, 145477575406724870,
  143962183996238170, 142493182118725530, 141068250297538280, 139685228235797680, 138342101041222710, 137036986880456460, 135768125890822600, 134533870200906040,
  133332674931255090, 132163090063437070, 131023753080131560, 129913382291316910, 128830770772222600, 127774780847860120, 126744339066828970, 125738431613917650,
  124756100116933920, 123796437808342110, 122858586006763760, 121941730887310310, 121045100513138900, 120167962103623400, 119309619517168950, 118469410929019870,
  117646706686457230, 116840907325591090, 116051441735553300, 115277765457316290, 114519359105623410, 113775726903638850, 113046395320923210, 112330911806233840,
  111628843607444860, 110939776671596450, 110263314618720850, 109599077783668310, 108946702320670290, 108305839365842820, 107676154253250710, 107057325780530880,
  106449045520414230, 105851017174793920, 105262955968267290, 104684588078331750, 104115650099645170, 103555888539969660, 103005059345608120, 102462927454315440,
  101929266373824210, 101403857784268430, 100886491162920120, 100376963429774050, 99875078612625179, 99380647530384461, 98893487493470808, 98413422020201535,
  97940280568181340, 97473898279761426, 97014115740705953, 96560778751263399, 96113738108896438, 95672849401974888, 95237972813784100, 94808972936244532,
  94385718592779153, 93968082669802250, 93555941956338207, 93149176991310659, 92747671918072247, 92351314345772789, 91959995217189006, 91573608682663010,
  91192051979818570, 90815225318744947, 90443031772356644, 90075377171656007, 89712170005641273, 89353321325618698, 88998744653691647, 88648355895212541,
  88302073254996866, 87959817157109280, 87621510168043482, 87287076923127288, 86956444055994217, 86629540130971683, 86306295578244180, 85986642631658089,
  85670515269041708, 85357849154921117, 85048581585519228, 84742651435931030, 84439999109374136, 84140566488418903, 83844296888107572, 83551135010876423,
  83261026903199767, 82973919913878397, 82689762653899351, 82408504957797654, 82130097846453740, 81854493491264307, 81581645179626752, 81311507281680975,
  81044035218254387, 80779185429959446, 80516915347394635, 80257183362403048, 79999948800344056, 79745171893336589, 79492813754433622, 79242836352690124,
  78995202489087965, 78749875773283351, 78506820601143584, 78266002133041912, 78027386272880209, 77790939647810864, 77556629588630716, 77324424110820439,
  77094291896204911, 76866202275210224, 76640125209694890, 76416031276333216, 76193891650529921, 75973678090846306, 75755362923918587, 75538919029850243,
  75324319828060898, 75111539263574847, 74900551793733353, 74691332375315098, 74483856452050343, 74278099942514289, 74074039228386498, 73871651143063044,
  73670912960609070, 73471802385039850, 73274297539918778, 73078376958261235, 72884019572733952, 72691204706139420, 72499912062175889, 72310121716463394,
  72121814107826768, 71934970029827211, 71749570622533843, 71565597364527347, 71383032065128041, 71201856856840912, 71022054188010511, 70843606815678820,
  70666497798639621, 70490710490682812, 70316228534022709, 70143035852904420, 69971116647382606, 69800455387267035, 69631036806229979, 69462845896070005,
  69295867901127531, 69130088312847310, 68965492864483391, 68802067525941965, 68639798498758134, 68478672211202365, 68318675313512642, 68159794673248661,
  68002017370764292, 67845330694794787, 67689722138155342, 67535179393547681, 67381690349471446, 67229243086237345, 67077825872079153, 66927427159361480,
  66778035580880774, 66629639946256591, 66482229238410892, 66335792610132449, 66190319380724269, 66045799032731417, 65902221208747211, 65759575708295381,
  65617852484786132, 65477041642544101, 65337133433906180, 65198118256387230, 65059986649911833, 64922729294110332, 64786337005677333, 64650800735790978,
  64516111567591405, 64382260713716735, 64249239513895010, 64117039432590700, 63985652056704242, 63855069093323211, 63725282367523783, 63596283820221103,
  63468065506067428, 63340619591396613, 63213938352213811, 63088014172229326, 62962839540935220, 62838407051723888, 62714709400047267, 62591739381615802]

/-- `X(LambdaI)`, lines 413-505. -/
def lambdaI (sqrt : K → K) (n : ℕ) (z : ℕ) : Option K :=
  if 255 < z then lambda sqrt n (z : K) else (lamInt[z]?).map fun t : ℕ => ((t : ℕ) : K) / 10 ^ 18

end FT.Model.Lc
