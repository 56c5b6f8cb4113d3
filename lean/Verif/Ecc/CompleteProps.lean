import Verif.Ecc.CompleteProgram

/-!
# C78: an honest prover and sequences of calls of the ECC chip
-/

set_option exponentiation.threshold 600

namespace Verif.Circuit

open Verif.Ecc

/-- Every sequence of calls whose arguments allow it (`EOp.Honest`: the tangent slopes that are needed can be computed, no non-zero
intermediate results of a multi-exponentiation cancel, results of `neg` and `sub` are reduced before further use) succeeds with satisfied constraints, and the cells hold the group
elements that the calls denote. Missing from C78: arguments that are not of that kind, for some of which the chip panics
(`C78_mul_panics`). -/
theorem C78_programs_complete_partial {ops : List EOp} {e : HEnv} (h : EProgHonest ops ⟨[], []⟩ e) :
    ∃ s ctx, runEProg ops ⟨[], [], []⟩ Ctx.empty = some (s, ctx) ∧ Sat tables ctx ctx.wit ∧ EStands ctx.wit s e.plain := by
  obtain ⟨s, c, f, g, p⟩ := runEProg_honest good_empty (s := ⟨[], [], []⟩) ⟨.nil, .nil⟩ h
  exact ⟨s, c, f, g.sat, p.stands⟩

/-- The chip cannot add the point `(badX, 4)` to itself: the tangent slope is not found. -/
theorem bad_add {p : APt} {d : Ctx N} (gd : Good tables d) (hp : HPt d p ((badX : ℕ) : W) ((4 : ℕ) : W) 0) (ox : p.x.overflows = 0)
    (oy : p.y.overflows = 0) (hc : p.curv = none) : pAdd p p d = none := by
  have v4 : (((4 : ℕ) : W)).val = 4 := ZMod.val_cast_of_lt (by decide +kernel)
  have vs : (((badSlope : ℕ) : W)).val = badSlope := ZMod.val_cast_of_lt (by decide +kernel)
  have vx : (((badX : ℕ) : W) ^ 2).val = badX ^ 2 % fqMod := by
    rw [← Nat.cast_pow, ZMod.val_natCast]
  have h4 : ((4 : ℕ) : W) ≠ 0 := by
    intro h
    have := congrArg ZMod.val h
    rw [v4, ZMod.val_zero] at this
    omega
  have zx : EvenCount p.x.overflows := by rw [ox]; exact evenCount_zero
  have zy : EvenCount p.y.overflows := by rw [oy]; exact evenCount_zero
  obtain ⟨dx, c1, f1, g1, e1, p1, o1⟩ := (CSpec.isub_even p.x p.x zx zx).run d gd ⟨hp.x.h, hp.x.h⟩
  obtain ⟨dy, c2, f2, g2, e2, p2, o2⟩ := (CSpec.isub_even p.y p.y zy zy).run c1 g1 ⟨hp.y.h.ext e1, hp.y.h.ext e1⟩
  obtain ⟨⟨xe, tg, dy', dx'⟩, c3, f3, g3, e3, p3, q3, o3, r3, -⟩ := (CSpec.idiv dy dx).run c2 g2 ⟨p2, p1.ext e2⟩
  obtain ⟨⟨ye, dy2⟩, c4, f4, g4, e4, p4, w4, -⟩ := (CSpec.iisZero dy').run c3 g3 r3
  obtain ⟨eq, c5, f5, g5, e5, -⟩ := (CSpec.mul (t := tables) xe ye).run c4 g4 ⟨p3.ext e4, p4⟩
  unfold pAdd
  rw [bind_some f1, bind_some f2, bind_some f3]
  dsimp only
  rw [bind_some f4]
  dsimp only
  unfold Circuit.and
  rw [bind_some f5]
  refine bind_none (curvature_panics g5 (hp.ext (e1.trans (e2.trans (e3.trans (e4.trans e5))))) ox oy hc h4 (s := ((badSlope : ℕ) : W)) ?_ ?_)
  · have := cast_of_mod (a := badSlope * (2 * 4)) (b := 3 * badX ^ 2) (by decide +kernel)
    push_cast at this ⊢
    exact this
  · rw [vs, v4, vx]
    decide +kernel

/-- C78 in full is false: a point that the chip accepts cannot be multiplied, whatever the scalar. -/
theorem C78_mul_panics (v : N) : (∃ s ctx, runEProg [.assign badPt, .scalar v] ⟨[], [], []⟩ Ctx.empty = some (s, ctx) ∧
    Sat tables ctx ctx.wit) ∧ runEProg [.assign badPt, .scalar v, .mul 0 0] ⟨[], [], []⟩ Ctx.empty = none := by
  have hx : coordX badPt = ((badX : ℕ) : W) := rfl
  have hy : coordY badPt = ((4 : ℕ) : W) := rfl
  have hz : flagOf badPt = 0 := flagOf_ne (aff_pt bad_eqn).ne_zero
  obtain ⟨p, c, f, g, -, hp, ox, oy, hc⟩ := (CSpec.assignPointRaw ((badX : ℕ) : W) ((4 : ℕ) : W) 0 (.inl bad_eqn)).run Ctx.empty
    good_empty trivial
  have f' : assignPoint badPt Ctx.empty = some (p, c) := by
    unfold assignPoint
    rw [hx, hy, hz, f]
  obtain ⟨k, c', fk, gk, ek, hk, vk⟩ := (CSpec.assign (t := tables) v).run c g trivial
  have r1 : (EOp.assign badPt).run ⟨[], [], []⟩ Ctx.empty = some (⟨[p], [], [p.z]⟩, c) := by
    unfold EOp.run
    dsimp only
    rw [bind_some f']
    rfl
  have r2 : (EOp.scalar v).run ⟨[p], [], [p.z]⟩ c = some (⟨[p], [k], [p.z]⟩, c') := by
    unfold EOp.run
    dsimp only
    rw [bind_some fk]
    rfl
  refine ⟨⟨⟨[p], [k], [p.z]⟩, c', ?_, gk.sat⟩, ?_⟩
  · rw [runEProg_one r1, runEProg_one r2]
    rfl
  rw [runEProg_one r1, runEProg_one r2]
  have hm : pMul p k c' = none := by
    obtain ⟨ws, d1, f1, g1, e1, -⟩ := (CSpec.decomposeScalar 4 (by norm_num) (by norm_num) k).run c' gk hk
    obtain ⟨id, d2, f2, g2, e2, -⟩ := CSpec.assignIdentity.run d1 g1 trivial
    have e02 := ek.trans (e1.trans e2)
    unfold pMul
    rw [bind_some f1, bind_some f2]
    refine bind_none ?_
    unfold buildCands
    exact bind_none (bad_add g2 (hp.ext e02) ox oy hc)
  have hr : (EOp.mul 0 0).run ⟨[p], [k], [p.z]⟩ c' = none := by
    unfold EOp.run
    dsimp only
    rw [bind_some (pt_run (p := p) rfl), bind_some (sc_run (p := k) rfl)]
    exact bind_none hm
  simp only [runEProg]
  exact bind_none hr

/-! ### A program that meets the hypotheses -/

/-- A multiple of the generator, the slopes of the chain that computes it, and the slope of its tangent. -/
def slopeTable : List (ℕ × List (Bool × ℕ × ℕ) × ℕ) := [
  (2, [(false, 16416182153879456416684804308942956316522233367973367747016778420983919656438, 0)], 21142052773935663566942551003941686165218027822389943310551911602782320769636),
  (4, [(false, 16416182153879456416684804308942956316522233367973367747016778420983919656438, 0), (false, 21142052773935663566942551003941686165218027822389943310551911602782320769636, 0)], 7790117279743201391352217075161109145090987528568760938134199078502047127619),
  (6, [(true, 16416182153879456416684804308942956316522233367973367747016778420983919656438, 13329378671953404782778259908970776496321471538098033640740119230713439037279), (false, 6597588128837311533837462132024146759936159999671213887650727707654607578784, 0)], 5245267500582376167353803737789836095861322058499971942886663563000946844758),
  (8, [(false, 16416182153879456416684804308942956316522233367973367747016778420983919656438, 0), (false, 21142052773935663566942551003941686165218027822389943310551911602782320769636, 0), (false, 7790117279743201391352217075161109145090987528568760938134199078502047127619, 0)], 7460228494492318376825991074923955587327805785423485491717518377853095330767),
  (10, [(false, 16416182153879456416684804308942956316522233367973367747016778420983919656438, 0), (true, 21142052773935663566942551003941686165218027822389943310551911602782320769636, 21635407612264672047965658712438282681626331733729169423395059925778107889692), (false, 20515521574497058241549135939098113513261860641120929235963256180545526078771, 0)], 18427652915442840563422982552658796096626156739942905852478365083185284616625),
  (12, [(true, 16416182153879456416684804308942956316522233367973367747016778420983919656438, 13329378671953404782778259908970776496321471538098033640740119230713439037279), (false, 6597588128837311533837462132024146759936159999671213887650727707654607578784, 0), (false, 5245267500582376167353803737789836095861322058499971942886663563000946844758, 0)], 5879201177478347122929891206274165417338267261760786705557214597734793160492),
  (14, [(true, 16416182153879456416684804308942956316522233367973367747016778420983919656438, 13329378671953404782778259908970776496321471538098033640740119230713439037279), (true, 6597588128837311533837462132024146759936159999671213887650727707654607578784, 4977997355531446710604378450306035277182050696644518357652168094812390518907), (false, 8651066264913411995039860537190286009514535509805163890982111219020040038264, 0)], 3419590070066348852482437870247363744044261406435148895613929702569946318675),
  (16, [(false, 16416182153879456416684804308942956316522233367973367747016778420983919656438, 0), (false, 21142052773935663566942551003941686165218027822389943310551911602782320769636, 0), (false, 7790117279743201391352217075161109145090987528568760938134199078502047127619, 0), (false, 7460228494492318376825991074923955587327805785423485491717518377853095330767, 0)], 3678527058813228338011368125374307997347658801714157490717951159420540266224),
  (18, [(false, 16416182153879456416684804308942956316522233367973367747016778420983919656438, 0), (false, 21142052773935663566942551003941686165218027822389943310551911602782320769636, 0), (true, 7790117279743201391352217075161109145090987528568760938134199078502047127619, 20522751404859359746352983279302201319840755908747292077647748579042560195659), (false, 6175217082298139933745843893126508602109401475598387762462552348459527224847, 0)], 3889131081125286716335465032165225072182541001604109467507863608644742575620),
  (20, [(false, 16416182153879456416684804308942956316522233367973367747016778420983919656438, 0), (true, 21142052773935663566942551003941686165218027822389943310551911602782320769636, 21635407612264672047965658712438282681626331733729169423395059925778107889692), (false, 20515521574497058241549135939098113513261860641120929235963256180545526078771, 0), (false, 18427652915442840563422982552658796096626156739942905852478365083185284616625, 0)], 21143515704034502611065728677760388556651387281422000261877156955094166800735),
  (22, [(false, 16416182153879456416684804308942956316522233367973367747016778420983919656438, 0), (true, 21142052773935663566942551003941686165218027822389943310551911602782320769636, 21635407612264672047965658712438282681626331733729169423395059925778107889692), (true, 20515521574497058241549135939098113513261860641120929235963256180545526078771, 19333135349551201199475748307299692920163463592329499702068992976401027453605), (false, 10662371638262337720184088188590789495875847978421818557678424438584992762031, 0)], 21319718991744616112979091571341625399265459248622597720615947684468684222289),
  (24, [(true, 16416182153879456416684804308942956316522233367973367747016778420983919656438, 13329378671953404782778259908970776496321471538098033640740119230713439037279), (false, 6597588128837311533837462132024146759936159999671213887650727707654607578784, 0), (false, 5245267500582376167353803737789836095861322058499971942886663563000946844758, 0), (false, 5879201177478347122929891206274165417338267261760786705557214597734793160492, 0)], 15532135662791483995581206803000737843263331774043544625713533272353484962534),
  (26, [(true, 16416182153879456416684804308942956316522233367973367747016778420983919656438, 13329378671953404782778259908970776496321471538098033640740119230713439037279), (false, 6597588128837311533837462132024146759936159999671213887650727707654607578784, 0), (true, 5245267500582376167353803737789836095861322058499971942886663563000946844758, 5727204950572680850434378741003241224769791075363958030597951599996419504499), (false, 15807015859317331015201676420077911423647661201290709032900860866389793169031, 0)], 10538207789700829814329083960794780637151173434918239881714874716744704537098),
  (28, [(true, 16416182153879456416684804308942956316522233367973367747016778420983919656438, 13329378671953404782778259908970776496321471538098033640740119230713439037279), (true, 6597588128837311533837462132024146759936159999671213887650727707654607578784, 4977997355531446710604378450306035277182050696644518357652168094812390518907), (false, 8651066264913411995039860537190286009514535509805163890982111219020040038264, 0), (false, 3419590070066348852482437870247363744044261406435148895613929702569946318675, 0)], 13800665600177268792280739579694661261077044728987813871958470480470345738481),
  (30, [(true, 16416182153879456416684804308942956316522233367973367747016778420983919656438, 13329378671953404782778259908970776496321471538098033640740119230713439037279), (true, 6597588128837311533837462132024146759936159999671213887650727707654607578784, 4977997355531446710604378450306035277182050696644518357652168094812390518907), (true, 8651066264913411995039860537190286009514535509805163890982111219020040038264, 12971178748329200406890723097238422688745004883528798544997441409276535267600), (false, 12839067661011541682323737406962101292483106192247411243158478645137178669220, 0)], 20470113227679391100669552757912884996641132931754990655123346177473859791449),
  (32, [(false, 16416182153879456416684804308942956316522233367973367747016778420983919656438, 0), (false, 21142052773935663566942551003941686165218027822389943310551911602782320769636, 0), (false, 7790117279743201391352217075161109145090987528568760938134199078502047127619, 0), (false, 7460228494492318376825991074923955587327805785423485491717518377853095330767, 0), (false, 3678527058813228338011368125374307997347658801714157490717951159420540266224, 0)], 848521295757854361364158389482146717093334606183049721517147888808818366962),
  (36, [(false, 16416182153879456416684804308942956316522233367973367747016778420983919656438, 0), (false, 21142052773935663566942551003941686165218027822389943310551911602782320769636, 0), (true, 7790117279743201391352217075161109145090987528568760938134199078502047127619, 20522751404859359746352983279302201319840755908747292077647748579042560195659), (false, 6175217082298139933745843893126508602109401475598387762462552348459527224847, 0), (false, 3889131081125286716335465032165225072182541001604109467507863608644742575620, 0)], 8747694192778351174046134044992960747061336285801048876396846308667699972207),
  (40, [(false, 16416182153879456416684804308942956316522233367973367747016778420983919656438, 0), (true, 21142052773935663566942551003941686165218027822389943310551911602782320769636, 21635407612264672047965658712438282681626331733729169423395059925778107889692), (false, 20515521574497058241549135939098113513261860641120929235963256180545526078771, 0), (false, 18427652915442840563422982552658796096626156739942905852478365083185284616625, 0), (false, 21143515704034502611065728677760388556651387281422000261877156955094166800735, 0)], 13358561763403801891199809015616525052418452367257511826069493581098806305455),
  (42, [(false, 16416182153879456416684804308942956316522233367973367747016778420983919656438, 0), (true, 21142052773935663566942551003941686165218027822389943310551911602782320769636, 21635407612264672047965658712438282681626331733729169423395059925778107889692), (false, 20515521574497058241549135939098113513261860641120929235963256180545526078771, 0), (true, 18427652915442840563422982552658796096626156739942905852478365083185284616625, 1876914483228565820101463241614217491418234944985173103516770353895578076438), (false, 3193482126953113094252684750739578635817347915957191183178323603462580257579, 0)], 3003407193889650051640471257794677075628349749588876590851315632816642823107),
  (44, [(false, 16416182153879456416684804308942956316522233367973367747016778420983919656438, 0), (true, 21142052773935663566942551003941686165218027822389943310551911602782320769636, 21635407612264672047965658712438282681626331733729169423395059925778107889692), (true, 20515521574497058241549135939098113513261860641120929235963256180545526078771, 19333135349551201199475748307299692920163463592329499702068992976401027453605), (false, 10662371638262337720184088188590789495875847978421818557678424438584992762031, 0), (false, 21319718991744616112979091571341625399265459248622597720615947684468684222289, 0)], 5573990680262676456974412182859578266808303874684723616475771772255823102399),
  (48, [(true, 16416182153879456416684804308942956316522233367973367747016778420983919656438, 13329378671953404782778259908970776496321471538098033640740119230713439037279), (false, 6597588128837311533837462132024146759936159999671213887650727707654607578784, 0), (false, 5245267500582376167353803737789836095861322058499971942886663563000946844758, 0), (false, 5879201177478347122929891206274165417338267261760786705557214597734793160492, 0), (false, 15532135662791483995581206803000737843263331774043544625713533272353484962534, 0)], 16783612991799254318290240547449138885713321842618152506899151902770388435464),
  (54, [(true, 16416182153879456416684804308942956316522233367973367747016778420983919656438, 13329378671953404782778259908970776496321471538098033640740119230713439037279), (false, 6597588128837311533837462132024146759936159999671213887650727707654607578784, 0), (true, 5245267500582376167353803737789836095861322058499971942886663563000946844758, 5727204950572680850434378741003241224769791075363958030597951599996419504499), (true, 15807015859317331015201676420077911423647661201290709032900860866389793169031, 9925837455651351353289038030064252925978893907852314558504813391860451947340), (false, 10720143755754882664440431547006938997647855424915231737508932015895409916322, 0)], 14233472366812974847332719790605107164987222137806011090316044435525258353215),
  (60, [(true, 16416182153879456416684804308942956316522233367973367747016778420983919656438, 13329378671953404782778259908970776496321471538098033640740119230713439037279), (true, 6597588128837311533837462132024146759936159999671213887650727707654607578784, 4977997355531446710604378450306035277182050696644518357652168094812390518907), (true, 8651066264913411995039860537190286009514535509805163890982111219020040038264, 12971178748329200406890723097238422688745004883528798544997441409276535267600), (false, 12839067661011541682323737406962101292483106192247411243158478645137178669220, 0), (false, 20470113227679391100669552757912884996641132931754990655123346177473859791449, 0)], 622193742676595263995120983575723285249361518102764643259215777649473513798),
  (66, [(false, 16416182153879456416684804308942956316522233367973367747016778420983919656438, 0), (false, 21142052773935663566942551003941686165218027822389943310551911602782320769636, 0), (false, 7790117279743201391352217075161109145090987528568760938134199078502047127619, 0), (false, 7460228494492318376825991074923955587327805785423485491717518377853095330767, 0), (true, 3678527058813228338011368125374307997347658801714157490717951159420540266224, 295186512009357651627700353062916559171931133150694928040503798795307033439), (false, 3421041553695446579419966912123067141859151446787472851391576443383698664987, 0)], 15236416084599070200760960574218791442424625581637262458888759546508035952551),
  (72, [(false, 16416182153879456416684804308942956316522233367973367747016778420983919656438, 0), (false, 21142052773935663566942551003941686165218027822389943310551911602782320769636, 0), (true, 7790117279743201391352217075161109145090987528568760938134199078502047127619, 20522751404859359746352983279302201319840755908747292077647748579042560195659), (false, 6175217082298139933745843893126508602109401475598387762462552348459527224847, 0), (false, 3889131081125286716335465032165225072182541001604109467507863608644742575620, 0), (false, 8747694192778351174046134044992960747061336285801048876396846308667699972207, 0)], 4212715604223659552733709761005265622596002202771441083530691793968950102588),
  (78, [(false, 16416182153879456416684804308942956316522233367973367747016778420983919656438, 0), (false, 21142052773935663566942551003941686165218027822389943310551911602782320769636, 0), (true, 7790117279743201391352217075161109145090987528568760938134199078502047127619, 20522751404859359746352983279302201319840755908747292077647748579042560195659), (true, 6175217082298139933745843893126508602109401475598387762462552348459527224847, 17120726603979899163322053650369988125320000663393461897266030528940789824280), (true, 16803349889857242045157577421389183558792743221122555807891051264959312902818, 11275672482772874073753169733136145098595169091126295859469493124448269939926), (false, 16931449286422573488488954729757041823589155114553732836485841414541838723072, 0)], 14551017921219939288197294782044160321897780256003737222997596225089931224056),
  (84, [(false, 16416182153879456416684804308942956316522233367973367747016778420983919656438, 0), (true, 21142052773935663566942551003941686165218027822389943310551911602782320769636, 21635407612264672047965658712438282681626331733729169423395059925778107889692), (false, 20515521574497058241549135939098113513261860641120929235963256180545526078771, 0), (true, 18427652915442840563422982552658796096626156739942905852478365083185284616625, 1876914483228565820101463241614217491418234944985173103516770353895578076438), (false, 3193482126953113094252684750739578635817347915957191183178323603462580257579, 0), (false, 3003407193889650051640471257794677075628349749588876590851315632816642823107, 0)], 2172910395313072444008673390186979782657717058025971904930457164195206958722),
  (86, [(false, 16416182153879456416684804308942956316522233367973367747016778420983919656438, 0), (true, 21142052773935663566942551003941686165218027822389943310551911602782320769636, 21635407612264672047965658712438282681626331733729169423395059925778107889692), (false, 20515521574497058241549135939098113513261860641120929235963256180545526078771, 0), (true, 18427652915442840563422982552658796096626156739942905852478365083185284616625, 1876914483228565820101463241614217491418234944985173103516770353895578076438), (true, 3193482126953113094252684750739578635817347915957191183178323603462580257579, 10231191404063700287190632280711563915886661358494168591125250404113933812125), (false, 12441320797345520092793247905880013661561354254207730874191109138626346438801, 0)], 12913939824194453758426509126863185834831228715214466111574387225955205517755),
  (90, [(false, 16416182153879456416684804308942956316522233367973367747016778420983919656438, 0), (true, 21142052773935663566942551003941686165218027822389943310551911602782320769636, 21635407612264672047965658712438282681626331733729169423395059925778107889692), (true, 20515521574497058241549135939098113513261860641120929235963256180545526078771, 19333135349551201199475748307299692920163463592329499702068992976401027453605), (false, 10662371638262337720184088188590789495875847978421818557678424438584992762031, 0), (true, 21319718991744616112979091571341625399265459248622597720615947684468684222289, 12189144867257454501471645658627109197812086425877608086632698560458373686585), (false, 425668031197597076860597112486395560608581138034355679140085670064707616223, 0)], 8009048603878297306791111431788375485484737038531605301039336553433832880550),
  (104, [(true, 16416182153879456416684804308942956316522233367973367747016778420983919656438, 13329378671953404782778259908970776496321471538098033640740119230713439037279), (false, 6597588128837311533837462132024146759936159999671213887650727707654607578784, 0), (true, 5245267500582376167353803737789836095861322058499971942886663563000946844758, 5727204950572680850434378741003241224769791075363958030597951599996419504499), (false, 15807015859317331015201676420077911423647661201290709032900860866389793169031, 0), (false, 10538207789700829814329083960794780637151173434918239881714874716744704537098, 0), (false, 7170102759851507057533501977191693588312693335251555736958899759871814710079, 0)], 17897144110693154190640691641575147994569411685869743729163261743586114168338),
  (144, [(false, 16416182153879456416684804308942956316522233367973367747016778420983919656438, 0), (false, 21142052773935663566942551003941686165218027822389943310551911602782320769636, 0), (true, 7790117279743201391352217075161109145090987528568760938134199078502047127619, 20522751404859359746352983279302201319840755908747292077647748579042560195659), (false, 6175217082298139933745843893126508602109401475598387762462552348459527224847, 0), (false, 3889131081125286716335465032165225072182541001604109467507863608644742575620, 0), (false, 8747694192778351174046134044992960747061336285801048876396846308667699972207, 0), (false, 4212715604223659552733709761005265622596002202771441083530691793968950102588, 0)], 1093075136054294473767553383905355802641169984842302417736406246925995644110),
  (172, [(false, 16416182153879456416684804308942956316522233367973367747016778420983919656438, 0), (true, 21142052773935663566942551003941686165218027822389943310551911602782320769636, 21635407612264672047965658712438282681626331733729169423395059925778107889692), (false, 20515521574497058241549135939098113513261860641120929235963256180545526078771, 0), (true, 18427652915442840563422982552658796096626156739942905852478365083185284616625, 1876914483228565820101463241614217491418234944985173103516770353895578076438), (true, 3193482126953113094252684750739578635817347915957191183178323603462580257579, 10231191404063700287190632280711563915886661358494168591125250404113933812125), (false, 12441320797345520092793247905880013661561354254207730874191109138626346438801, 0), (false, 12913939824194453758426509126863185834831228715214466111574387225955205517755, 0)], 13940949361413593146436090589956903078924017155574974883796965204704714530378),
  (208, [(true, 16416182153879456416684804308942956316522233367973367747016778420983919656438, 13329378671953404782778259908970776496321471538098033640740119230713439037279), (false, 6597588128837311533837462132024146759936159999671213887650727707654607578784, 0), (true, 5245267500582376167353803737789836095861322058499971942886663563000946844758, 5727204950572680850434378741003241224769791075363958030597951599996419504499), (false, 15807015859317331015201676420077911423647661201290709032900860866389793169031, 0), (false, 10538207789700829814329083960794780637151173434918239881714874716744704537098, 0), (false, 7170102759851507057533501977191693588312693335251555736958899759871814710079, 0), (false, 17897144110693154190640691641575147994569411685869743729163261743586114168338, 0)], 7969825248339396061327157219977046550729466470080908649867698177371466171140),
  (344, [(false, 16416182153879456416684804308942956316522233367973367747016778420983919656438, 0), (true, 21142052773935663566942551003941686165218027822389943310551911602782320769636, 21635407612264672047965658712438282681626331733729169423395059925778107889692), (false, 20515521574497058241549135939098113513261860641120929235963256180545526078771, 0), (true, 18427652915442840563422982552658796096626156739942905852478365083185284616625, 1876914483228565820101463241614217491418234944985173103516770353895578076438), (true, 3193482126953113094252684750739578635817347915957191183178323603462580257579, 10231191404063700287190632280711563915886661358494168591125250404113933812125), (false, 12441320797345520092793247905880013661561354254207730874191109138626346438801, 0), (false, 12913939824194453758426509126863185834831228715214466111574387225955205517755, 0), (false, 13940949361413593146436090589956903078924017155574974883796965204704714530378, 0)], 16888519317303543662637046453272959717511371902835620956723424219027904202011),
  (416, [(true, 16416182153879456416684804308942956316522233367973367747016778420983919656438, 13329378671953404782778259908970776496321471538098033640740119230713439037279), (false, 6597588128837311533837462132024146759936159999671213887650727707654607578784, 0), (true, 5245267500582376167353803737789836095861322058499971942886663563000946844758, 5727204950572680850434378741003241224769791075363958030597951599996419504499), (false, 15807015859317331015201676420077911423647661201290709032900860866389793169031, 0), (false, 10538207789700829814329083960794780637151173434918239881714874716744704537098, 0), (false, 7170102759851507057533501977191693588312693335251555736958899759871814710079, 0), (false, 17897144110693154190640691641575147994569411685869743729163261743586114168338, 0), (false, 7969825248339396061327157219977046550729466470080908649867698177371466171140, 0)], 15023832596604494400323009822749945977969448022530895301767061764670906340880),
  (688, [(false, 16416182153879456416684804308942956316522233367973367747016778420983919656438, 0), (true, 21142052773935663566942551003941686165218027822389943310551911602782320769636, 21635407612264672047965658712438282681626331733729169423395059925778107889692), (false, 20515521574497058241549135939098113513261860641120929235963256180545526078771, 0), (true, 18427652915442840563422982552658796096626156739942905852478365083185284616625, 1876914483228565820101463241614217491418234944985173103516770353895578076438), (true, 3193482126953113094252684750739578635817347915957191183178323603462580257579, 10231191404063700287190632280711563915886661358494168591125250404113933812125), (false, 12441320797345520092793247905880013661561354254207730874191109138626346438801, 0), (false, 12913939824194453758426509126863185834831228715214466111574387225955205517755, 0), (false, 13940949361413593146436090589956903078924017155574974883796965204704714530378, 0), (false, 16888519317303543662637046453272959717511371902835620956723424219027904202011, 0)], 11390779153374946768946371865214640543438707262309213266193620176382744268102),
  (832, [(true, 16416182153879456416684804308942956316522233367973367747016778420983919656438, 13329378671953404782778259908970776496321471538098033640740119230713439037279), (false, 6597588128837311533837462132024146759936159999671213887650727707654607578784, 0), (true, 5245267500582376167353803737789836095861322058499971942886663563000946844758, 5727204950572680850434378741003241224769791075363958030597951599996419504499), (false, 15807015859317331015201676420077911423647661201290709032900860866389793169031, 0), (false, 10538207789700829814329083960794780637151173434918239881714874716744704537098, 0), (false, 7170102759851507057533501977191693588312693335251555736958899759871814710079, 0), (false, 17897144110693154190640691641575147994569411685869743729163261743586114168338, 0), (false, 7969825248339396061327157219977046550729466470080908649867698177371466171140, 0), (false, 15023832596604494400323009822749945977969448022530895301767061764670906340880, 0)], 18200951732731421869905750034873412797903220232197417609074352399753220300095),
  (1708, [(true, 16416182153879456416684804308942956316522233367973367747016778420983919656438, 13329378671953404782778259908970776496321471538098033640740119230713439037279), (false, 6597588128837311533837462132024146759936159999671213887650727707654607578784, 0), (true, 5245267500582376167353803737789836095861322058499971942886663563000946844758, 5727204950572680850434378741003241224769791075363958030597951599996419504499), (false, 15807015859317331015201676420077911423647661201290709032900860866389793169031, 0), (true, 10538207789700829814329083960794780637151173434918239881714874716744704537098, 3971686896064434388409069970817797939668766629710302607776277928979759106876), (false, 20324450479813103918383938691739454246975725671924713864694890805046831882840, 0), (true, 1001674543367452298074974089723605905682036471481649439654514238205236036128, 10224421746082087329490080470544660312158372458186988160455980795593942199333), (true, 471720104856493070785020649538621642504153139227923223882685783669490845215, 17358085849219910751058615557530517158833368024462484127812286167147965601246), (false, 292144505531034654144072420060313878520647553589161955008165667360365776807, 0), (false, 17421518215796207679809214602975376422542442319040183458361497606949963742294, 0)], 957819635446514497176494294655660147630328081436679707540421828197557501553)]

/-- The chain computes the multiple, and its tangent can be computed by the chip. -/
def slopeCheck (e : ℕ × List (Bool × ℕ × ℕ) × ℕ) : Bool :=
  match runChain e.2.1 (1, 1, 2) with
  | none => false
  | some (k, x, y) =>
    let t := e.2.2
    k == e.1 && decide (x < fqMod) && decide (y < fqMod) && decide (t < fqMod) &&
      decide ((t * (2 * y)) % fqMod = (3 * x ^ 2) % fqMod) && decide ((2 * y) % fqMod ≠ 0) &&
      decide (3 * (x ^ 2 % fqMod) ≤ t * (2 * y)) && decide (3 * (x ^ 2 % fqMod % 2 ^ 136) ≤ 2 ^ 136 + 2 ^ 68 * (2 * (y % 2 ^ 68) * (t / 2 ^ 68 % 2 ^ 68))) &&
      decide (3 * (x ^ 2 % fqMod) ≤ t * (2 * y % fqMod)) && decide (3 * (x ^ 2 % fqMod % 2 ^ 136) ≤ 2 ^ 136 + 2 ^ 68 * (2 * y % fqMod % 2 ^ 68 * (t / 2 ^ 68 % 2 ^ 68)))

theorem slopeTable_ok : slopeTable.all slopeCheck = true := by decide +kernel

/-- What the check says. -/
theorem slopeCheck_sound {e : ℕ × List (Bool × ℕ × ℕ) × ℕ} (hc : slopeCheck e = true) :
    ∃ x y, runChain e.2.1 (1, 1, 2) = some (e.1, x, y) ∧ x < fqMod ∧ y < fqMod ∧ Aff (e.1 • gen) (x : Fq) (y : Fq) ∧ Safe (e.1 • gen) := by
  unfold slopeCheck at hc
  split at hc
  · exact absurd hc (by simp)
  · next k x y hr =>
    simp only [Bool.and_eq_true, decide_eq_true_eq, beq_iff_eq] at hc
    obtain ⟨⟨⟨⟨⟨⟨⟨⟨⟨hk, h1⟩, h2⟩, h3⟩, h4⟩, h5⟩, h6⟩, h7⟩, h8⟩, h9⟩ := hc
    have hg : Aff (1 • gen) ((1 : ℕ) : Fq) ((2 : ℕ) : Fq) := by
      rw [one_nsmul]
      exact (aff_pt (x := 1) (y := 2) (by norm_num)).congr (by simp) (by simp)
    have ha := runChain_sound hg hr
    dsimp only at ha
    rw [hk] at ha
    refine ⟨x, y, by rw [hr, hk], h1, h2, ha, ?_⟩
    obtain ⟨cx, cy⟩ := aff_unique ha
    unfold Safe
    rw [← cx, ← cy]
    exact tangentSafe_nat h1 h2 h3 h4 h5 h6 h7 h8 h9

theorem safe_gen {m : ℕ} (h : m ∈ slopeTable.map Prod.fst) : Safe (m • gen) := by
  obtain ⟨e, he, rfl⟩ := List.mem_map.1 h
  obtain ⟨_, _, _, _, _, _, hs⟩ := slopeCheck_sound (List.all_eq_true.1 slopeTable_ok e he)
  exact hs

theorem safe_mul {k m : ℕ} (h : k * m ∈ slopeTable.map Prod.fst) : Safe (k • m • gen) := by
  rw [← mul_nsmul']
  exact safe_gen h

theorem slope_keys : slopeTable.map Prod.fst = [2, 4, 6, 8, 10, 12, 14, 16, 18, 20, 22, 24, 26, 28, 30, 32, 36, 40, 42, 44, 48, 54,
    60, 66, 72, 78, 84, 86, 90, 104, 144, 172, 208, 344, 416, 688, 832, 1708] := rfl

theorem table2 : ∀ k, 1 ≤ k → k ≤ 15 → Safe (k • 2 • gen) := by
  intro k h1 h2
  apply safe_mul
  rw [slope_keys]
  interval_cases k <;> decide

theorem table6 : ∀ k, 1 ≤ k → k ≤ 15 → Safe (k • 6 • gen) := by
  intro k h1 h2
  apply safe_mul
  rw [slope_keys]
  interval_cases k <;> decide

theorem safe_of_eq {P : Pt} {m : ℕ} (h : P = m • gen) (hm : m = 0 ∨ m ∈ slopeTable.map Prod.fst) : Safe P := by
  rw [h]
  rcases hm with rfl | hm
  · rw [zero_nsmul]
    exact safe_zero
  · exact safe_gen hm

theorem mulSafe2 : MulSafe (2 • gen) 0x2b7 := by
  refine ⟨table2, fun j hj i hi => ?_⟩
  rw [← mul_nsmul']
  refine safe_of_eq rfl ?_
  rw [slope_keys]
  by_cases h3 : 3 ≤ j
  · left
    rw [Nat.div_eq_of_lt (lt_of_lt_of_le (by norm_num) (Nat.pow_le_pow_right (by norm_num) h3))]
    simp
  · interval_cases j <;> interval_cases i <;> decide

theorem mulSafe6 : MulSafe (6 • gen) 0x35 := by
  refine ⟨table6, fun j hj i hi => ?_⟩
  rw [← mul_nsmul']
  refine safe_of_eq rfl ?_
  rw [slope_keys]
  by_cases h3 : 2 ≤ j
  · left
    rw [Nat.div_eq_of_lt (lt_of_lt_of_le (by norm_num) (Nat.pow_le_pow_right (by norm_num) h3))]
    simp
  · interval_cases j <;> interval_cases i <;> decide

theorem mulSum_gen (a b : ℕ) : mulSum [2 • gen, 6 • gen] [a, b] = (a * 2 + b * 6) • gen := by
  simp only [mulSum, List.zipWith_cons_cons, List.zipWith_nil_left, List.sum_cons, List.sum_nil, ← mul_nsmul', add_zero, add_nsmul]

theorem gen_cancel {a b : ℕ} (h : a + b < frMod) : a • gen + b • gen = 0 → a • gen = 0 := by
  rw [← add_nsmul]
  intro h0
  by_cases ha : a + b = 0
  · rw [show a = 0 by omega, zero_nsmul]
  · exact absurd (nsmul_zero_of_lt h ha h0) gen_ne_zero

theorem shamirSafe_gen : ShamirSafe [2 • gen, 6 • gen] [0x2b7, 0x35] := by
  have hbig : ∀ {j n : ℕ}, 3 ≤ j → n < 16 ^ 3 → n / 16 ^ j = 0 := fun hj hn =>
    Nat.div_eq_of_lt (lt_of_lt_of_le hn (Nat.pow_le_pow_right (by norm_num) hj))
  have hf : (1000000 : ℕ) < frMod := by decide +kernel
  have hd : ∀ j n, hexDigit j n < 16 := fun j n => Nat.mod_lt _ (by norm_num)
  refine ⟨?_, fun j _ => ?_, fun j hj _ i hi => ?_, fun j _ => ?_, fun j _ => ?_⟩
  · simp only [List.mem_cons, List.not_mem_nil, or_false, forall_eq_or_imp, forall_eq]
    exact ⟨table2, table6⟩
  · refine safe_of_eq (mulSum_gen _ _) ?_
    rw [slope_keys]
    by_cases h3 : 3 ≤ j
    · left
      simp [hexDigit, hbig h3]
    · interval_cases j <;> decide
  · simp only [List.map_cons, List.map_nil]
    rw [mulSum_gen, ← mul_nsmul']
    refine safe_of_eq rfl ?_
    rw [slope_keys]
    by_cases h3 : 3 ≤ j
    · left
      simp [hbig h3]
    · interval_cases j <;> interval_cases i <;> decide
  · simp only [List.zipWith_cons_cons, List.zipWith_nil_left, NoCancel, add_zero, ← mul_nsmul', imp_self, and_true, true_and]
    exact gen_cancel (by have := hd j 0x2b7; have := hd j 0x35; omega)
  · simp only [List.map_cons, List.map_nil]
    rw [mulSum_gen, mulSum_gen, ← mul_nsmul']
    refine gen_cancel ?_
    have := hd j 0x2b7
    have := hd j 0x35
    have := Nat.div_le_self 0x2b7 (16 ^ (j + 1))
    have := Nat.div_le_self 0x35 (16 ^ (j + 1))
    omega

/-- The hypotheses are met by a program with two multiplications, a multi-exponentiation, a subtraction and a comparison. -/
example : ∃ s ctx, runEProg [.scalar ((0x2b7 : ℕ) : N), .scalar ((0x35 : ℕ) : N), .assign (2 • gen), .constant (6 • gen), .mul 0 0,
    .shamir [0, 1] [0, 1], .sub 3 2, .reduce 4, .mul 1 1, .assertEqual 5 6] ⟨[], [], []⟩ Ctx.empty = some (s, ctx) ∧
    Sat tables ctx ctx.wit ∧ EStands ctx.wit s ⟨[2 • gen, 6 • gen, 1390 • gen, 1708 • gen, 318 • gen, 318 • gen, 318 • gen],
      [((0x2b7 : ℕ) : N), ((0x35 : ℕ) : N)]⟩ := by
  have v1 : (((0x2b7 : ℕ) : N)).val = 0x2b7 := ZMod.val_cast_of_lt (by decide +kernel)
  have v2 : (((0x35 : ℕ) : N)).val = 0x35 := ZMod.val_cast_of_lt (by decide +kernel)
  have s1 : (0x2b7 : ℕ) • 2 • gen = 1390 • gen := by rw [← mul_nsmul']
  have s2 : (0x35 : ℕ) • 6 • gen = 318 • gen := by rw [← mul_nsmul']
  have s3 : 1708 • gen - 1390 • gen = 318 • gen := by
    rw [sub_eq_iff_eq_add, ← add_nsmul]
  have s4 : (List.zipWith (fun (P : Pt) (s : N) => s.val • P) [2 • gen, 6 • gen] [((0x2b7 : ℕ) : N), ((0x35 : ℕ) : N)]).sum = 1708 • gen := by
    simp only [List.zipWith_cons_cons, List.zipWith_nil_left, List.sum_cons, List.sum_nil, v1, v2, s1, s2, add_zero]
    rw [← add_nsmul]
  refine C78_programs_complete_partial (e := ⟨[(2 • gen, true), (6 • gen, true), (1390 • gen, true), (1708 • gen, true),
    (318 • gen, false), (318 • gen, true), (318 • gen, true)], [((0x2b7 : ℕ) : N), ((0x35 : ℕ) : N)]⟩) ?_
  refine ⟨_, rfl, _, rfl, _, rfl, _, rfl, _, ⟨_, _, rfl, rfl, ?_, rfl⟩, _, ⟨[2 • gen, 6 • gen], [((0x2b7 : ℕ) : N), ((0x35 : ℕ) : N)], rfl, rfl, by simp, rfl, ?_, rfl⟩, _,
    ⟨_, _, rfl, rfl, ?_, rfl⟩, _, ⟨_, _, rfl, rfl⟩, _, ⟨_, _, rfl, rfl, ?_, rfl⟩, _, ⟨rfl, ?_⟩, ?_⟩
  · rw [v1]
    exact mulSafe2
  · simp only [List.map_cons, List.map_nil, v1, v2]
    exact shamirSafe_gen
  · rw [s4]
    exact safe_gen (by rw [slope_keys]; decide)
  · rw [v2]
    exact mulSafe6
  · refine ⟨318 • gen, ?_, ?_⟩
    · simp only [List.nil_append, List.cons_append, v1, s1, s4, s3]
      rfl
    · simp only [List.nil_append, List.cons_append, v2, s2]
      rfl
  · simp only [EProgHonest, List.nil_append, List.cons_append, v1, v2, s1, s2, s4, s3]

end Verif.Circuit
