import Verif.Model.Curves
import Mathlib.Analysis.SpecialFunctions.Trigonometric.InverseDeriv
import Mathlib.Analysis.SpecialFunctions.Trigonometric.Bounds
import Mathlib.Analysis.Calculus.Deriv.MeanValue
import Mathlib.Analysis.Real.Pi.Bounds
import Mathlib.Tactic.Ring
import Mathlib.Tactic.FieldSimp
import Mathlib.Tactic.Linarith
import Mathlib.Tactic.Positivity

/-!
How far `fast_acos` is from the arc cosine: the difference grows or falls on five pieces of `[0, 1]`, which follows from
the sign of a polynomial in `y = x²`, shown by writing it with products of the distances to both ends of the piece.
-/
namespace Xo.Curves
open Real Set

noncomputable def accA : ℝ := -0.939115566365855
noncomputable def accB : ℝ := 0.9217841528914573
noncomputable def accC : ℝ := -1.2845906244690837
noncomputable def accD : ℝ := 0.295624144969963174
/-- The denominator, as a polynomial in `y = x²`. -/
noncomputable def accDen (y : ℝ) : ℝ := 1 + accC * y + accD * y ^ 2
/-- The numerator of the slope of the fraction, as a polynomial in `y = x²`. -/
noncomputable def accSlope (y : ℝ) : ℝ :=
  -((accA + 3 * accB * y) * (1 + accC * y + accD * y ^ 2) - (accA + accB * y) * y * (2 * accC + 4 * accD * y))
/-- The fraction of `fast_acos` with the opposite sign: the approximation of the arc sine. -/
noncomputable def accG (x : ℝ) : ℝ := -(accA * x + accB * x ^ 3) / (1 + accC * x ^ 2 + accD * x ^ 4)
/-- The error of `fast_acos`. -/
noncomputable def accE (x : ℝ) : ℝ := arcsin x - accG x

theorem acc_piece0 {y : ℝ} (hl : 0 ≤ y) (hu : y ≤ (16883881/100000000)) :
    0 ≤ accDen y ^ 4 - accSlope y ^ 2 * (1 - y) := by
  have h1 : 0 ≤ y - 0 := by linarith
  have h2 : 0 ≤ (16883881/100000000) - y := by linarith
  have key : (16883881/100000000)^8 * (accDen y ^ 4 - accSlope y ^ 2 * (1 - y)) =
      (4722478120373575722731604759/40000000000000000000000000000) * (y - 0)^0 * ((16883881/100000000) - y)^8 + (14404499920710013642241810508977796247083659075871323/20000000000000000000000000000000000000000000000000000) * (y - 0)^1 * ((16883881/100000000) - y)^7 + (75209396975944337063793324872009589952091576731457551662875550429076583369231/40000000000000000000000000000000000000000000000000000000000000000000000000000) * (y - 0)^2 * ((16883881/100000000) - y)^6 + (54461812181489373637888659496728902735874924619207768846275560677309603883162048744587/20000000000000000000000000000000000000000000000000000000000000000000000000000000000000) * (y - 0)^3 * ((16883881/100000000) - y)^5 + (2362979506817146456477742605188415340336330157427602304238846465863042252257083123784642646810147/1000000000000000000000000000000000000000000000000000000000000000000000000000000000000000000000000) * (y - 0)^4 * ((16883881/100000000) - y)^4 + (1535812832502577204940942716067508373834939736848314381614362379512314645485365336387143994122183489608279/1250000000000000000000000000000000000000000000000000000000000000000000000000000000000000000000000000000000) * (y - 0)^5 * ((16883881/100000000) - y)^3 + (1772356834951068678532649604246955146316270103349209600772090839361206318271796155874608177859848414021161083422313/5000000000000000000000000000000000000000000000000000000000000000000000000000000000000000000000000000000000000000000) * (y - 0)^6 * ((16883881/100000000) - y)^2 + (2736680456336835585246385013754085382906957367317256617393949522347039651825534853136676004518513400031128000644406113027683/62500000000000000000000000000000000000000000000000000000000000000000000000000000000000000000000000000000000000000000000000000) * (y - 0)^7 * ((16883881/100000000) - y)^1 + (3132651050212834895172262932582369321136082758736581747430065938456271957604720555428195668088233338019188703568552540465234616401/625000000000000000000000000000000000000000000000000000000000000000000000000000000000000000000000000000000000000000000000000000000000000) * (y - 0)^8 * ((16883881/100000000) - y)^0 := by
    unfold accDen accSlope accA accB accC accD
    ring
  have hp : (0 : ℝ) ≤ (4722478120373575722731604759/40000000000000000000000000000) * (y - 0)^0 * ((16883881/100000000) - y)^8 + (14404499920710013642241810508977796247083659075871323/20000000000000000000000000000000000000000000000000000) * (y - 0)^1 * ((16883881/100000000) - y)^7 + (75209396975944337063793324872009589952091576731457551662875550429076583369231/40000000000000000000000000000000000000000000000000000000000000000000000000000) * (y - 0)^2 * ((16883881/100000000) - y)^6 + (54461812181489373637888659496728902735874924619207768846275560677309603883162048744587/20000000000000000000000000000000000000000000000000000000000000000000000000000000000000) * (y - 0)^3 * ((16883881/100000000) - y)^5 + (2362979506817146456477742605188415340336330157427602304238846465863042252257083123784642646810147/1000000000000000000000000000000000000000000000000000000000000000000000000000000000000000000000000) * (y - 0)^4 * ((16883881/100000000) - y)^4 + (1535812832502577204940942716067508373834939736848314381614362379512314645485365336387143994122183489608279/1250000000000000000000000000000000000000000000000000000000000000000000000000000000000000000000000000000000) * (y - 0)^5 * ((16883881/100000000) - y)^3 + (1772356834951068678532649604246955146316270103349209600772090839361206318271796155874608177859848414021161083422313/5000000000000000000000000000000000000000000000000000000000000000000000000000000000000000000000000000000000000000000) * (y - 0)^6 * ((16883881/100000000) - y)^2 + (2736680456336835585246385013754085382906957367317256617393949522347039651825534853136676004518513400031128000644406113027683/62500000000000000000000000000000000000000000000000000000000000000000000000000000000000000000000000000000000000000000000000000) * (y - 0)^7 * ((16883881/100000000) - y)^1 + (3132651050212834895172262932582369321136082758736581747430065938456271957604720555428195668088233338019188703568552540465234616401/625000000000000000000000000000000000000000000000000000000000000000000000000000000000000000000000000000000000000000000000000000000000000) * (y - 0)^8 * ((16883881/100000000) - y)^0 := by positivity
  rw [← key] at hp
  exact nonneg_of_mul_nonneg_right hp (by norm_num)

theorem acc_piece1 {y : ℝ} (hl : (168921/1000000) ≤ y) (hu : y ≤ (75220929/100000000)) :
    0 ≤ accSlope y ^ 2 * (1 - y) - accDen y ^ 4 := by
  have h1 : 0 ≤ y - (168921/1000000) := by linarith
  have h2 : 0 ≤ (75220929/100000000) - y := by linarith
  have key : (58328829/100000000)^8 * (accSlope y ^ 2 * (1 - y) - accDen y ^ 4) =
      (1017006804971043421881391159048094125934439368002821834974089047602169039771514032318501322008088905090504102668079/62500000000000000000000000000000000000000000000000000000000000000000000000000000000000000000000000000000000000000000000) * (y - (168921/1000000))^0 * ((75220929/100000000) - y)^8 + (118047412621037323760952159312396187435717861587689332749017872213672971124767564236830181323873121969053947862599892071/781250000000000000000000000000000000000000000000000000000000000000000000000000000000000000000000000000000000000000000000) * (y - (168921/1000000))^1 * ((75220929/100000000) - y)^7 + (75547134848170932067349156250868675682225792683836998013407939925663906282370149697802379339654122356582301205837156076953/156250000000000000000000000000000000000000000000000000000000000000000000000000000000000000000000000000000000000000000000000) * (y - (168921/1000000))^2 * ((75220929/100000000) - y)^6 + (4664278653204839011064795423381403761042621313704839739760230077598723342553900993587806329909720150885343037568825218984097/7812500000000000000000000000000000000000000000000000000000000000000000000000000000000000000000000000000000000000000000000000) * (y - (168921/1000000))^3 * ((75220929/100000000) - y)^5 + (227327672199330847088892847059377892708494579370459724443090035345608791504377638185255835164868578843163191462727165628197353/625000000000000000000000000000000000000000000000000000000000000000000000000000000000000000000000000000000000000000000000000000) * (y - (168921/1000000))^4 * ((75220929/100000000) - y)^4 + (9150650440686903341597193535412057955215053900202993235287391224193342389714428034622215399831169192495557046487719459956003697/78125000000000000000000000000000000000000000000000000000000000000000000000000000000000000000000000000000000000000000000000000000) * (y - (168921/1000000))^5 * ((75220929/100000000) - y)^3 + (299568994511350515909405804960479564638465752781295811934178340113693278841381768351042020262679464952750784841306531951831037753/15625000000000000000000000000000000000000000000000000000000000000000000000000000000000000000000000000000000000000000000000000000000) * (y - (168921/1000000))^6 * ((75220929/100000000) - y)^2 + (984830214641173008036497852349903396750342820159781684997955477659108135183278395222689562334579220514215269769875570254044900471/781250000000000000000000000000000000000000000000000000000000000000000000000000000000000000000000000000000000000000000000000000000000) * (y - (168921/1000000))^7 * ((75220929/100000000) - y)^1 + (189017598092759844251263088369916802350220920545377145180369538840484646194747395570988038371309052405899431563338821406608656879/625000000000000000000000000000000000000000000000000000000000000000000000000000000000000000000000000000000000000000000000000000000000000) * (y - (168921/1000000))^8 * ((75220929/100000000) - y)^0 := by
    unfold accDen accSlope accA accB accC accD
    ring
  have hp : (0 : ℝ) ≤ (1017006804971043421881391159048094125934439368002821834974089047602169039771514032318501322008088905090504102668079/62500000000000000000000000000000000000000000000000000000000000000000000000000000000000000000000000000000000000000000000) * (y - (168921/1000000))^0 * ((75220929/100000000) - y)^8 + (118047412621037323760952159312396187435717861587689332749017872213672971124767564236830181323873121969053947862599892071/781250000000000000000000000000000000000000000000000000000000000000000000000000000000000000000000000000000000000000000000) * (y - (168921/1000000))^1 * ((75220929/100000000) - y)^7 + (75547134848170932067349156250868675682225792683836998013407939925663906282370149697802379339654122356582301205837156076953/156250000000000000000000000000000000000000000000000000000000000000000000000000000000000000000000000000000000000000000000000) * (y - (168921/1000000))^2 * ((75220929/100000000) - y)^6 + (4664278653204839011064795423381403761042621313704839739760230077598723342553900993587806329909720150885343037568825218984097/7812500000000000000000000000000000000000000000000000000000000000000000000000000000000000000000000000000000000000000000000000) * (y - (168921/1000000))^3 * ((75220929/100000000) - y)^5 + (227327672199330847088892847059377892708494579370459724443090035345608791504377638185255835164868578843163191462727165628197353/625000000000000000000000000000000000000000000000000000000000000000000000000000000000000000000000000000000000000000000000000000) * (y - (168921/1000000))^4 * ((75220929/100000000) - y)^4 + (9150650440686903341597193535412057955215053900202993235287391224193342389714428034622215399831169192495557046487719459956003697/78125000000000000000000000000000000000000000000000000000000000000000000000000000000000000000000000000000000000000000000000000000) * (y - (168921/1000000))^5 * ((75220929/100000000) - y)^3 + (299568994511350515909405804960479564638465752781295811934178340113693278841381768351042020262679464952750784841306531951831037753/15625000000000000000000000000000000000000000000000000000000000000000000000000000000000000000000000000000000000000000000000000000000) * (y - (168921/1000000))^6 * ((75220929/100000000) - y)^2 + (984830214641173008036497852349903396750342820159781684997955477659108135183278395222689562334579220514215269769875570254044900471/781250000000000000000000000000000000000000000000000000000000000000000000000000000000000000000000000000000000000000000000000000000000) * (y - (168921/1000000))^7 * ((75220929/100000000) - y)^1 + (189017598092759844251263088369916802350220920545377145180369538840484646194747395570988038371309052405899431563338821406608656879/625000000000000000000000000000000000000000000000000000000000000000000000000000000000000000000000000000000000000000000000000000000000000) * (y - (168921/1000000))^8 * ((75220929/100000000) - y)^0 := by positivity
  rw [← key] at hp
  exact nonneg_of_mul_nonneg_right hp (by norm_num)

theorem acc_piece2 {y : ℝ} (hl : (18809569/25000000) ≤ y) (hu : y ≤ (3869089/4000000)) :
    0 ≤ accDen y ^ 4 - accSlope y ^ 2 * (1 - y) := by
  have h1 : 0 ≤ y - (18809569/25000000) := by linarith
  have h2 : 0 ≤ (3869089/4000000) - y := by linarith
  have key : (21488949/100000000)^8 * (accDen y ^ 4 - accSlope y ^ 2 * (1 - y)) =
      (675529982276867848454463732287151378549233437648517894681091700867900260800222435833579206578862077699371278222371502646801/9536743164062500000000000000000000000000000000000000000000000000000000000000000000000000000000000000000000000000000000000000000000) * (y - (18809569/25000000))^0 * ((3869089/4000000) - y)^8 + (88085257912647253970649122543325495998254779427732453162158408670113053958715575617759111091012123307723665037797299507216881/190734863281250000000000000000000000000000000000000000000000000000000000000000000000000000000000000000000000000000000000000000000) * (y - (18809569/25000000))^1 * ((3869089/4000000) - y)^7 + (111604312316249432697509148026110334052239823042757438990363514533334530858587720379208132308997857887595324702856815456313527/61035156250000000000000000000000000000000000000000000000000000000000000000000000000000000000000000000000000000000000000000000000) * (y - (18809569/25000000))^2 * ((3869089/4000000) - y)^6 + (13198949774658930389540638526904036451914456480922531589562379366964332029961725161828196381894301797825207399835550865097687/4882812500000000000000000000000000000000000000000000000000000000000000000000000000000000000000000000000000000000000000000000000) * (y - (18809569/25000000))^3 * ((3869089/4000000) - y)^5 + (1155342676102325012375088226881938857794981078760912040270888927817399187651694346406160306163533358174533905651329524774647/625000000000000000000000000000000000000000000000000000000000000000000000000000000000000000000000000000000000000000000000000000) * (y - (18809569/25000000))^4 * ((3869089/4000000) - y)^4 + (74742326822940974472698217622132799862144343707811746766643622194674500925897483723981387657055203657498626094867519568407/125000000000000000000000000000000000000000000000000000000000000000000000000000000000000000000000000000000000000000000000000000) * (y - (18809569/25000000))^5 * ((3869089/4000000) - y)^3 + (3633819835217426395396771075589972959272468042417031680033113825651064023595862663586199793834159728540688903781495622967/40000000000000000000000000000000000000000000000000000000000000000000000000000000000000000000000000000000000000000000000000000) * (y - (18809569/25000000))^6 * ((3869089/4000000) - y)^2 + (16168414903100620180217193060321813709275747429932143800421324615715712318871790955220134656797425344115095309076371761/3200000000000000000000000000000000000000000000000000000000000000000000000000000000000000000000000000000000000000000000000000) * (y - (18809569/25000000))^7 * ((3869089/4000000) - y)^1 + (6791612689071547514487259637635105910426366481418069904380930949471087864098604575445046504086330378570922787898641/4096000000000000000000000000000000000000000000000000000000000000000000000000000000000000000000000000000000000000000000000000) * (y - (18809569/25000000))^8 * ((3869089/4000000) - y)^0 := by
    unfold accDen accSlope accA accB accC accD
    ring
  have hp : (0 : ℝ) ≤ (675529982276867848454463732287151378549233437648517894681091700867900260800222435833579206578862077699371278222371502646801/9536743164062500000000000000000000000000000000000000000000000000000000000000000000000000000000000000000000000000000000000000000000) * (y - (18809569/25000000))^0 * ((3869089/4000000) - y)^8 + (88085257912647253970649122543325495998254779427732453162158408670113053958715575617759111091012123307723665037797299507216881/190734863281250000000000000000000000000000000000000000000000000000000000000000000000000000000000000000000000000000000000000000000) * (y - (18809569/25000000))^1 * ((3869089/4000000) - y)^7 + (111604312316249432697509148026110334052239823042757438990363514533334530858587720379208132308997857887595324702856815456313527/61035156250000000000000000000000000000000000000000000000000000000000000000000000000000000000000000000000000000000000000000000000) * (y - (18809569/25000000))^2 * ((3869089/4000000) - y)^6 + (13198949774658930389540638526904036451914456480922531589562379366964332029961725161828196381894301797825207399835550865097687/4882812500000000000000000000000000000000000000000000000000000000000000000000000000000000000000000000000000000000000000000000000) * (y - (18809569/25000000))^3 * ((3869089/4000000) - y)^5 + (1155342676102325012375088226881938857794981078760912040270888927817399187651694346406160306163533358174533905651329524774647/625000000000000000000000000000000000000000000000000000000000000000000000000000000000000000000000000000000000000000000000000000) * (y - (18809569/25000000))^4 * ((3869089/4000000) - y)^4 + (74742326822940974472698217622132799862144343707811746766643622194674500925897483723981387657055203657498626094867519568407/125000000000000000000000000000000000000000000000000000000000000000000000000000000000000000000000000000000000000000000000000000) * (y - (18809569/25000000))^5 * ((3869089/4000000) - y)^3 + (3633819835217426395396771075589972959272468042417031680033113825651064023595862663586199793834159728540688903781495622967/40000000000000000000000000000000000000000000000000000000000000000000000000000000000000000000000000000000000000000000000000000) * (y - (18809569/25000000))^6 * ((3869089/4000000) - y)^2 + (16168414903100620180217193060321813709275747429932143800421324615715712318871790955220134656797425344115095309076371761/3200000000000000000000000000000000000000000000000000000000000000000000000000000000000000000000000000000000000000000000000000) * (y - (18809569/25000000))^7 * ((3869089/4000000) - y)^1 + (6791612689071547514487259637635105910426366481418069904380930949471087864098604575445046504086330378570922787898641/4096000000000000000000000000000000000000000000000000000000000000000000000000000000000000000000000000000000000000000000000000) * (y - (18809569/25000000))^8 * ((3869089/4000000) - y)^0 := by positivity
  rw [← key] at hp
  exact nonneg_of_mul_nonneg_right hp (by norm_num)

theorem acc_piece3 {y : ℝ} (hl : (386948241/400000000) ≤ y) (hu : y ≤ (2496701089/2500000000)) :
    0 ≤ accSlope y ^ 2 * (1 - y) - accDen y ^ 4 := by
  have h1 : 0 ≤ y - (386948241/400000000) := by linarith
  have h2 : 0 ≤ (2496701089/2500000000) - y := by linarith
  have key : (313098331/10000000000)^8 * (accSlope y ^ 2 * (1 - y) - accDen y ^ 4) =
      (26080713806652546318628827808647208703452082421426296651941502647653837573050506059339215165142000772624418770127272012956960062319/40960000000000000000000000000000000000000000000000000000000000000000000000000000000000000000000000000000000000000000000000000000000000000000) * (y - (386948241/400000000))^0 * ((2496701089/2500000000) - y)^8 + (23422360632876201237419131497087129239863484094878382212597073855308586430626104811537377392575397309692466331208110020773495114141151/32000000000000000000000000000000000000000000000000000000000000000000000000000000000000000000000000000000000000000000000000000000000000000000) * (y - (386948241/400000000))^1 * ((2496701089/2500000000) - y)^7 + (1572691839714633063697022667663947892934421020218917020598081436749334443237024664981070546679033565173970160153364594216327036371565353/400000000000000000000000000000000000000000000000000000000000000000000000000000000000000000000000000000000000000000000000000000000000000000000) * (y - (386948241/400000000))^2 * ((2496701089/2500000000) - y)^6 + (10932854151926403342866968528937880531657035917536543771228854440825704768350119827147436241459355625203591113897734963524375963451604537/1250000000000000000000000000000000000000000000000000000000000000000000000000000000000000000000000000000000000000000000000000000000000000000000) * (y - (386948241/400000000))^3 * ((2496701089/2500000000) - y)^5 + (64428435038268711062255565069607611022994512430087461601196150275982303596644607008898610959605998838004753005057803744287611625986931273/6250000000000000000000000000000000000000000000000000000000000000000000000000000000000000000000000000000000000000000000000000000000000000000000) * (y - (386948241/400000000))^4 * ((2496701089/2500000000) - y)^4 + (332045388541676758634312172277567638660647715642681850717417142242016977437969506171994098844883174298041301008477564375473218237745168217/48828125000000000000000000000000000000000000000000000000000000000000000000000000000000000000000000000000000000000000000000000000000000000000000) * (y - (386948241/400000000))^5 * ((2496701089/2500000000) - y)^3 + (1457957484495178354425918679335523666694036176663331811078223212526048024773963816454275118250642246344544842075972503795175108567302085993/610351562500000000000000000000000000000000000000000000000000000000000000000000000000000000000000000000000000000000000000000000000000000000000000) * (y - (386948241/400000000))^6 * ((2496701089/2500000000) - y)^2 + (669819466844096362309947008214647426986146537272665969915507304504067731284454716064232963888906394291032615068743328346240792975625983871/1907348632812500000000000000000000000000000000000000000000000000000000000000000000000000000000000000000000000000000000000000000000000000000000000) * (y - (386948241/400000000))^7 * ((2496701089/2500000000) - y)^1 + (6338696278490401083580175352154481259694935091105709011468165552846829156720889560439496299166304271185837674493062867732013912880837359/95367431640625000000000000000000000000000000000000000000000000000000000000000000000000000000000000000000000000000000000000000000000000000000000000) * (y - (386948241/400000000))^8 * ((2496701089/2500000000) - y)^0 := by
    unfold accDen accSlope accA accB accC accD
    ring
  have hp : (0 : ℝ) ≤ (26080713806652546318628827808647208703452082421426296651941502647653837573050506059339215165142000772624418770127272012956960062319/40960000000000000000000000000000000000000000000000000000000000000000000000000000000000000000000000000000000000000000000000000000000000000000) * (y - (386948241/400000000))^0 * ((2496701089/2500000000) - y)^8 + (23422360632876201237419131497087129239863484094878382212597073855308586430626104811537377392575397309692466331208110020773495114141151/32000000000000000000000000000000000000000000000000000000000000000000000000000000000000000000000000000000000000000000000000000000000000000000) * (y - (386948241/400000000))^1 * ((2496701089/2500000000) - y)^7 + (1572691839714633063697022667663947892934421020218917020598081436749334443237024664981070546679033565173970160153364594216327036371565353/400000000000000000000000000000000000000000000000000000000000000000000000000000000000000000000000000000000000000000000000000000000000000000000) * (y - (386948241/400000000))^2 * ((2496701089/2500000000) - y)^6 + (10932854151926403342866968528937880531657035917536543771228854440825704768350119827147436241459355625203591113897734963524375963451604537/1250000000000000000000000000000000000000000000000000000000000000000000000000000000000000000000000000000000000000000000000000000000000000000000) * (y - (386948241/400000000))^3 * ((2496701089/2500000000) - y)^5 + (64428435038268711062255565069607611022994512430087461601196150275982303596644607008898610959605998838004753005057803744287611625986931273/6250000000000000000000000000000000000000000000000000000000000000000000000000000000000000000000000000000000000000000000000000000000000000000000) * (y - (386948241/400000000))^4 * ((2496701089/2500000000) - y)^4 + (332045388541676758634312172277567638660647715642681850717417142242016977437969506171994098844883174298041301008477564375473218237745168217/48828125000000000000000000000000000000000000000000000000000000000000000000000000000000000000000000000000000000000000000000000000000000000000000) * (y - (386948241/400000000))^5 * ((2496701089/2500000000) - y)^3 + (1457957484495178354425918679335523666694036176663331811078223212526048024773963816454275118250642246344544842075972503795175108567302085993/610351562500000000000000000000000000000000000000000000000000000000000000000000000000000000000000000000000000000000000000000000000000000000000000) * (y - (386948241/400000000))^6 * ((2496701089/2500000000) - y)^2 + (669819466844096362309947008214647426986146537272665969915507304504067731284454716064232963888906394291032615068743328346240792975625983871/1907348632812500000000000000000000000000000000000000000000000000000000000000000000000000000000000000000000000000000000000000000000000000000000000) * (y - (386948241/400000000))^7 * ((2496701089/2500000000) - y)^1 + (6338696278490401083580175352154481259694935091105709011468165552846829156720889560439496299166304271185837674493062867732013912880837359/95367431640625000000000000000000000000000000000000000000000000000000000000000000000000000000000000000000000000000000000000000000000000000000000000) * (y - (386948241/400000000))^8 * ((2496701089/2500000000) - y)^0 := by positivity
  rw [← key] at hp
  exact nonneg_of_mul_nonneg_right hp (by norm_num)

theorem acc_piece4 {y : ℝ} (hl : (39947617161/40000000000) ≤ y) (hu : y ≤ 1) :
    0 ≤ accDen y ^ 4 - accSlope y ^ 2 * (1 - y) := by
  have h1 : 0 ≤ y - (39947617161/40000000000) := by linarith
  have h2 : 0 ≤ 1 - y := by linarith
  have key : (52382839/40000000000)^8 * (accDen y ^ 4 - accSlope y ^ 2 * (1 - y)) =
      (18620286527434482017952442438463735248830020238440887974222250206943074506632429813964020696649475408429288078187100039271202428887605842808738641/409600000000000000000000000000000000000000000000000000000000000000000000000000000000000000000000000000000000000000000000000000000000000000000000000000000000) * (y - (39947617161/40000000000))^0 * (1 - y)^8 + (38481131744597564968739981113513430274514711391787317688182710987695571452178184535815565617646248931787571075082793422180496983065969437/2560000000000000000000000000000000000000000000000000000000000000000000000000000000000000000000000000000000000000000000000000000000000000000000000) * (y - (39947617161/40000000000))^1 * (1 - y)^7 + (6660293575193947037554294604955154712300351076354783438200059699888746691863644473872024700772922334249118927662891178614697897/64000000000000000000000000000000000000000000000000000000000000000000000000000000000000000000000000000000000000000000000000000000000000) * (y - (39947617161/40000000000))^2 * (1 - y)^6 + (498033543720374173525603471887727754352383048952586347500474228938006262883722709445552042546794449344929680961231179/1600000000000000000000000000000000000000000000000000000000000000000000000000000000000000000000000000000000000000000000000000) * (y - (39947617161/40000000000))^3 * (1 - y)^5 + (8292416287090023207441503006470610204646572835283268935116829363937085350053297761447849196185439757271607/16000000000000000000000000000000000000000000000000000000000000000000000000000000000000000000000000000000000000000) * (y - (39947617161/40000000000))^4 * (1 - y)^4 + (518172688599730406996538694462340950875578698311510870823612807813591352829846924813734649122899/1000000000000000000000000000000000000000000000000000000000000000000000000000000000000000000000000000000) * (y - (39947617161/40000000000))^5 * (1 - y)^3 + (7773949060106132000205941070667582512351707260431102462164744850971772341768400075617/25000000000000000000000000000000000000000000000000000000000000000000000000000000000000000000) * (y - (39947617161/40000000000))^6 * (1 - y)^2 + (64807163866983367554135473930892826751023238532710781383797545696843221317/625000000000000000000000000000000000000000000000000000000000000000000000000000000) * (y - (39947617161/40000000000))^7 * (1 - y)^1 + (926267534761815946416138755357894016337048861781228371237630561/62500000000000000000000000000000000000000000000000000000000000000000000) * (y - (39947617161/40000000000))^8 * (1 - y)^0 := by
    unfold accDen accSlope accA accB accC accD
    ring
  have hp : (0 : ℝ) ≤ (18620286527434482017952442438463735248830020238440887974222250206943074506632429813964020696649475408429288078187100039271202428887605842808738641/409600000000000000000000000000000000000000000000000000000000000000000000000000000000000000000000000000000000000000000000000000000000000000000000000000000000) * (y - (39947617161/40000000000))^0 * (1 - y)^8 + (38481131744597564968739981113513430274514711391787317688182710987695571452178184535815565617646248931787571075082793422180496983065969437/2560000000000000000000000000000000000000000000000000000000000000000000000000000000000000000000000000000000000000000000000000000000000000000000000) * (y - (39947617161/40000000000))^1 * (1 - y)^7 + (6660293575193947037554294604955154712300351076354783438200059699888746691863644473872024700772922334249118927662891178614697897/64000000000000000000000000000000000000000000000000000000000000000000000000000000000000000000000000000000000000000000000000000000000000) * (y - (39947617161/40000000000))^2 * (1 - y)^6 + (498033543720374173525603471887727754352383048952586347500474228938006262883722709445552042546794449344929680961231179/1600000000000000000000000000000000000000000000000000000000000000000000000000000000000000000000000000000000000000000000000000) * (y - (39947617161/40000000000))^3 * (1 - y)^5 + (8292416287090023207441503006470610204646572835283268935116829363937085350053297761447849196185439757271607/16000000000000000000000000000000000000000000000000000000000000000000000000000000000000000000000000000000000000000) * (y - (39947617161/40000000000))^4 * (1 - y)^4 + (518172688599730406996538694462340950875578698311510870823612807813591352829846924813734649122899/1000000000000000000000000000000000000000000000000000000000000000000000000000000000000000000000000000000) * (y - (39947617161/40000000000))^5 * (1 - y)^3 + (7773949060106132000205941070667582512351707260431102462164744850971772341768400075617/25000000000000000000000000000000000000000000000000000000000000000000000000000000000000000000) * (y - (39947617161/40000000000))^6 * (1 - y)^2 + (64807163866983367554135473930892826751023238532710781383797545696843221317/625000000000000000000000000000000000000000000000000000000000000000000000000000000) * (y - (39947617161/40000000000))^7 * (1 - y)^1 + (926267534761815946416138755357894016337048861781228371237630561/62500000000000000000000000000000000000000000000000000000000000000000000) * (y - (39947617161/40000000000))^8 * (1 - y)^0 := by positivity
  rw [← key] at hp
  exact nonneg_of_mul_nonneg_right hp (by norm_num)

theorem accDen_pos {y : ℝ} (h0 : 0 ≤ y) (h1 : y ≤ 1) : 0 < accDen y := by
  unfold accDen accC accD
  nlinarith [mul_nonneg h0 (sub_nonneg.2 h1)]

theorem accSlope_pos {y : ℝ} (h0 : 0 ≤ y) (h1 : y ≤ 1) : 0 < accSlope y := by
  have h2 : 0 ≤ 1 - y := sub_nonneg.2 h1
  unfold accSlope accA accB accC accD
  nlinarith [mul_nonneg h0 h2, mul_nonneg (mul_nonneg h0 h2) h2, mul_nonneg (mul_nonneg h0 h0) h2,
    pow_nonneg h2 3, pow_nonneg h0 3]

theorem accDen_sq (x : ℝ) : 1 + accC * x ^ 2 + accD * x ^ 4 = accDen (x ^ 2) := by unfold accDen; ring

theorem accG_deriv {x : ℝ} (h0 : 0 ≤ x) (h1 : x ≤ 1) :
    HasDerivAt accG (accSlope (x ^ 2) / accDen (x ^ 2) ^ 2) x := by
  have hp : 0 < accDen (x ^ 2) := accDen_pos (by positivity) (by nlinarith)
  have hn : HasDerivAt (fun x : ℝ => -(accA * x + accB * x ^ 3)) (-(accA * 1 + accB * (3 * x ^ 2))) x := by
    have := ((hasDerivAt_id x).const_mul accA).add ((hasDerivAt_pow 3 x).const_mul accB)
    exact this.neg.congr_deriv (by norm_num)
  have hd : HasDerivAt (fun x : ℝ => 1 + accC * x ^ 2 + accD * x ^ 4)
      (accC * (2 * x) + accD * (4 * x ^ 3)) x := by
    have := (((hasDerivAt_pow 2 x).const_mul accC).const_add 1).add ((hasDerivAt_pow 4 x).const_mul accD)
    exact this.congr_deriv (by norm_num)
  have := hn.div hd (by rw [accDen_sq]; exact hp.ne')
  refine this.congr_deriv ?_
  rw [accDen_sq]
  congr 1
  unfold accSlope accDen
  ring

theorem accG_cont : ContinuousOn accG (Icc 0 1) := fun x hx =>
  (accG_deriv hx.1 hx.2).continuousAt.continuousWithinAt

theorem accG_mono : StrictMonoOn accG (Icc 0 1) := by
  refine strictMonoOn_of_deriv_pos (convex_Icc 0 1) accG_cont fun x hx => ?_
  rw [interior_Icc] at hx
  rw [(accG_deriv hx.1.le hx.2.le).deriv]
  have h0 : (0 : ℝ) ≤ x ^ 2 := by positivity
  have h1 : x ^ 2 ≤ 1 := by nlinarith [hx.1, hx.2]
  exact div_pos (accSlope_pos h0 h1) (pow_pos (accDen_pos h0 h1) 2)

theorem accE_cont {u v : ℝ} (hu : 0 ≤ u) (hv : v ≤ 1) : ContinuousOn accE (Icc u v) :=
  (continuous_arcsin.continuousOn).sub (accG_cont.mono (Icc_subset_Icc hu hv))

theorem accE_deriv {x : ℝ} (h0 : 0 < x) (h1 : x < 1) :
    deriv accE x = 1 / √(1 - x ^ 2) - accSlope (x ^ 2) / accDen (x ^ 2) ^ 2 := by
  have h : HasDerivAt accE (1 / √(1 - x ^ 2) - accSlope (x ^ 2) / accDen (x ^ 2) ^ 2) x :=
    (hasDerivAt_arcsin (by linarith) (by linarith)).sub (accG_deriv h0.le h1.le)
  exact h.deriv

theorem accE_up {u v : ℝ} (hu : 0 ≤ u) (hv : v ≤ 1)
    (h : ∀ y : ℝ, u ^ 2 ≤ y → y ≤ v ^ 2 → 0 ≤ accDen y ^ 4 - accSlope y ^ 2 * (1 - y)) : MonotoneOn accE (Icc u v) := by
  refine monotoneOn_of_deriv_nonneg (convex_Icc u v) (accE_cont hu hv) ?_ ?_
  · intro x hx
    rw [interior_Icc] at hx
    have hx0 : 0 < x := lt_of_le_of_lt hu hx.1
    have hx1 : x < 1 := lt_of_lt_of_le hx.2 hv
    exact ((hasDerivAt_arcsin (by linarith) (by linarith)).sub
      (accG_deriv hx0.le hx1.le)).differentiableAt.differentiableWithinAt
  · intro x hx
    rw [interior_Icc] at hx
    have hx0 : 0 < x := lt_of_le_of_lt hu hx.1
    have hx1 : x < 1 := lt_of_lt_of_le hx.2 hv
    rw [accE_deriv hx0 hx1]
    have hy0 : (0 : ℝ) ≤ x ^ 2 := by positivity
    have hy1 : x ^ 2 < 1 := by nlinarith
    have hd := accDen_pos hy0 hy1.le
    have hs := accSlope_pos hy0 hy1.le
    have hr : 0 < √(1 - x ^ 2) := Real.sqrt_pos.2 (by linarith)
    have hk := h (x ^ 2) (by nlinarith [hx.1]) (by nlinarith [hx.2])
    rw [sub_nonneg, div_le_div_iff₀ (pow_pos hd 2) hr, one_mul]
    refine le_of_sq_le_sq ?_ (by positivity)
    have hq : √(1 - x ^ 2) ^ 2 = 1 - x ^ 2 := Real.sq_sqrt (by linarith)
    rw [mul_pow, hq]
    nlinarith [hk]

theorem accE_down {u v : ℝ} (hu : 0 ≤ u) (hv : v ≤ 1)
    (h : ∀ y : ℝ, u ^ 2 ≤ y → y ≤ v ^ 2 → 0 ≤ accSlope y ^ 2 * (1 - y) - accDen y ^ 4) : AntitoneOn accE (Icc u v) := by
  refine antitoneOn_of_deriv_nonpos (convex_Icc u v) (accE_cont hu hv) ?_ ?_
  · intro x hx
    rw [interior_Icc] at hx
    have hx0 : 0 < x := lt_of_le_of_lt hu hx.1
    have hx1 : x < 1 := lt_of_lt_of_le hx.2 hv
    exact ((hasDerivAt_arcsin (by linarith) (by linarith)).sub
      (accG_deriv hx0.le hx1.le)).differentiableAt.differentiableWithinAt
  · intro x hx
    rw [interior_Icc] at hx
    have hx0 : 0 < x := lt_of_le_of_lt hu hx.1
    have hx1 : x < 1 := lt_of_lt_of_le hx.2 hv
    rw [accE_deriv hx0 hx1]
    have hy0 : (0 : ℝ) ≤ x ^ 2 := by positivity
    have hy1 : x ^ 2 < 1 := by nlinarith
    have hd := accDen_pos hy0 hy1.le
    have hs := accSlope_pos hy0 hy1.le
    have hr : 0 < √(1 - x ^ 2) := Real.sqrt_pos.2 (by linarith)
    have hk := h (x ^ 2) (by nlinarith [hx.1]) (by nlinarith [hx.2])
    rw [sub_nonpos, div_le_div_iff₀ hr (pow_pos hd 2), one_mul]
    refine le_of_sq_le_sq ?_ (by positivity)
    have hq : √(1 - x ^ 2) ^ 2 = 1 - x ^ 2 := Real.sq_sqrt (by linarith)
    rw [mul_pow, hq]
    nlinarith [hk]

theorem arcsin_le_near {v S : ℝ} (hv : v ≤ 1) (hv0 : 0 ≤ v) (h0 : 0 ≤ S) (h1 : S ≤ 1)
    (h : v ≤ 1 - 2 * (S / 2 - (S / 2) ^ 3 / 6 + (S / 2) ^ 5 / 100) ^ 2) : arcsin v ≤ π / 2 - S := by
  have hp := pi_gt_three
  rw [arcsin_le_iff_le_sin ⟨by linarith, hv⟩ ⟨by linarith, by linarith⟩, sin_pi_div_two_sub]
  have e : cos S = 1 - 2 * sin (S / 2) ^ 2 := by
    have := cos_two_mul (S / 2)
    have h2 := sin_sq_add_cos_sq (S / 2)
    rw [show 2 * (S / 2) = S by ring] at this
    linarith
  have hs0 : 0 ≤ sin (S / 2) := sin_nonneg_of_nonneg_of_le_pi (by linarith) (by linarith)
  have hb := sin_bound (x := S / 2) (by rw [abs_of_nonneg (by linarith)]; linarith)
  rw [abs_of_nonneg (show 0 ≤ S / 2 by linarith)] at hb
  have hu := (abs_le.1 hb).2
  have : sin (S / 2) ^ 2 ≤ (S / 2 - (S / 2) ^ 3 / 6 + (S / 2) ^ 5 / 100) ^ 2 :=
    pow_le_pow_left₀ hs0 (by linarith) 2
  rw [e]; linarith

theorem le_arcsin_near {u S : ℝ} (hu : u ≤ 1) (hu0 : 0 ≤ u) (h0 : 0 < S) (h1 : S ≤ 1)
    (h : 1 - 2 * (S / 2 - (S / 2) ^ 3 / 6) ^ 2 ≤ u) : π / 2 - S ≤ arcsin u := by
  have hp := pi_gt_three
  rw [le_arcsin_iff_sin_le ⟨by linarith, by linarith⟩ ⟨by linarith, hu⟩, sin_pi_div_two_sub]
  have e : cos S = 1 - 2 * sin (S / 2) ^ 2 := by
    have := cos_two_mul (S / 2)
    have h2 := sin_sq_add_cos_sq (S / 2)
    rw [show 2 * (S / 2) = S by ring] at this
    linarith
  have hb := sin_gt_sub_cube (x := S / 2) (by linarith)
  have h3 : 0 ≤ S / 2 - (S / 2) ^ 3 / 6 := by
    have : (S / 2) ^ 3 ≤ S / 2 := by
      have : (S / 2) ^ 2 ≤ 1 := by nlinarith
      nlinarith [mul_le_mul_of_nonneg_left this (show 0 ≤ S / 2 by linarith)]
    linarith
  have : (S / 2 - (S / 2) ^ 3 / 6) ^ 2 ≤ sin (S / 2) ^ 2 := pow_le_pow_left₀ h3 hb.le 2
  rw [e]; linarith

theorem accE_window {u v A B : ℝ} (hu : 0 ≤ u) (hv : v ≤ 1) (hA : arcsin v ≤ A) (hB : B ≤ arcsin u)
    (h1 : A - accG u ≤ 0.017) (h2 : -0.017 ≤ B - accG v) {x : ℝ} (hx : x ∈ Icc u v) : |accE x| ≤ 0.017 := by
  have hx0 : x ∈ Icc (0 : ℝ) 1 := ⟨hu.trans hx.1, hx.2.trans hv⟩
  have g1 := accG_mono.monotoneOn ⟨hu, (hx.1.trans hx.2).trans hv⟩ hx0 hx.1
  have g2 := accG_mono.monotoneOn hx0 ⟨hu.trans (hx.1.trans hx.2), hv⟩ hx.2
  have a1 := monotone_arcsin hx.1
  have a2 := monotone_arcsin hx.2
  unfold accE
  rw [abs_le]
  constructor <;> linarith

theorem accE_win1 {x : ℝ} (hx : x ∈ Icc (0.4109 : ℝ) 0.4110) : |accE x| ≤ 0.017 := by
  have hp := pi_gt_three
  refine accE_window (A := 0.4237) (B := 0.4232) (by norm_num) (by norm_num) ?_ ?_ ?_ ?_ hx
  · rw [arcsin_le_iff_le_sin ⟨by norm_num, by norm_num⟩ ⟨by linarith, by linarith⟩]
    have := sin_gt_sub_cube (x := 0.4237) (by norm_num)
    refine le_trans ?_ this.le
    norm_num
  · rw [le_arcsin_iff_sin_le ⟨by linarith, by linarith⟩ ⟨by norm_num, by norm_num⟩]
    have hb := sin_bound (x := 0.4232) (by rw [abs_of_nonneg] <;> norm_num)
    have hu := (abs_le.1 hb).2
    rw [abs_of_nonneg (show (0 : ℝ) ≤ 0.4232 by norm_num)] at hu
    have h2 : (0.4232 : ℝ) - 0.4232 ^ 3 / 6 + 0.4232 ^ 5 / 100 ≤ 0.4109 := by norm_num
    linarith
  · norm_num [accG, accA, accB, accC, accD]
  · norm_num [accG, accA, accB, accC, accD]

theorem accE_win2 {x : ℝ} (hx : x ∈ Icc (0.8673 : ℝ) 0.8674) : |accE x| ≤ 0.017 := by
  have hp1 := pi_gt_d6
  have hp2 := pi_lt_d6
  have hA : arcsin (0.8674 : ℝ) ≤ π / 2 - 0.51983 := arcsin_le_near (by norm_num) (by norm_num) (by norm_num) (by norm_num)
    (by norm_num)
  have hB : π / 2 - 0.52206 ≤ arcsin (0.8673 : ℝ) := le_arcsin_near (by norm_num) (by norm_num) (by norm_num) (by norm_num)
    (by norm_num)
  refine accE_window (by norm_num) (by norm_num) hA hB ?_ ?_ hx
  · have : (1.570797 : ℝ) - 0.51983 - 0.017 ≤ accG 0.8673 := by norm_num [accG, accA, accB, accC, accD]
    norm_num at hp1 hp2 this ⊢; linarith
  · have : accG 0.8674 ≤ (1.570796 : ℝ) - 0.52206 + 0.017 := by norm_num [accG, accA, accB, accC, accD]
    norm_num at hp1 hp2 this ⊢; linarith

theorem accE_win3 {x : ℝ} (hx : x ∈ Icc (0.9835 : ℝ) 0.98355) : |accE x| ≤ 0.017 := by
  have hp1 := pi_gt_d6
  have hp2 := pi_lt_d6
  have hA : arcsin (0.98355 : ℝ) ≤ π / 2 - 0.18162 := arcsin_le_near (by norm_num) (by norm_num) (by norm_num) (by norm_num)
    (by norm_num)
  have hB : π / 2 - 0.18192 ≤ arcsin (0.9835 : ℝ) := le_arcsin_near (by norm_num) (by norm_num) (by norm_num) (by norm_num)
    (by norm_num)
  refine accE_window (by norm_num) (by norm_num) hA hB ?_ ?_ hx
  · have : (1.570797 : ℝ) - 0.18162 - 0.017 ≤ accG 0.9835 := by norm_num [accG, accA, accB, accC, accD]
    norm_num at hp1 hp2 this ⊢; linarith
  · have : accG 0.98355 ≤ (1.570796 : ℝ) - 0.18192 + 0.017 := by norm_num [accG, accA, accB, accC, accD]
    norm_num at hp1 hp2 this ⊢; linarith

theorem accE_win4 {x : ℝ} (hx : x ∈ Icc (0.99934 : ℝ) 0.999345) : |accE x| ≤ 0.017 := by
  have hp1 := pi_gt_d6
  have hp2 := pi_lt_d6
  have hA : arcsin (0.999345 : ℝ) ≤ π / 2 - 0.03618 := arcsin_le_near (by norm_num) (by norm_num) (by norm_num) (by norm_num)
    (by norm_num)
  have hB : π / 2 - 0.03635 ≤ arcsin (0.99934 : ℝ) := le_arcsin_near (by norm_num) (by norm_num) (by norm_num) (by norm_num)
    (by norm_num)
  refine accE_window (by norm_num) (by norm_num) hA hB ?_ ?_ hx
  · have : (1.570797 : ℝ) - 0.03618 - 0.017 ≤ accG 0.99934 := by norm_num [accG, accA, accB, accC, accD]
    norm_num at hp1 hp2 this ⊢; linarith
  · have : accG 0.999345 ≤ (1.570796 : ℝ) - 0.03635 + 0.017 := by norm_num [accG, accA, accB, accC, accD]
    norm_num at hp1 hp2 this ⊢; linarith

theorem accG_zero : accG 0 = 0 := by simp [accG]

theorem accG_one : 1.57079632679489 ≤ accG 1 ∧ accG 1 ≤ 1.57079632679490 := by
  constructor <;> norm_num [accG, accA, accB, accC, accD]

theorem accE_one : |accE 1| ≤ 0.00000000000001 := by
  have hp1 := pi_gt_d20
  have hp2 := pi_lt_d20
  have := accG_one
  unfold accE
  rw [arcsin_one, abs_le]
  constructor <;> linarith [this.1, this.2]

/-- The error of `fast_acos` on `[0, 1]`. -/
theorem accE_le {x : ℝ} (h0 : 0 ≤ x) (h1 : x ≤ 1) : |accE x| ≤ 0.017 := by
  have up : ∀ {u v : ℝ}, MonotoneOn accE (Icc u v) → |accE u| ≤ 0.017 → |accE v| ≤ 0.017 → u ≤ x → x ≤ v →
      |accE x| ≤ 0.017 := by
    intro u v hm hu hv h1 h2
    have a := hm ⟨le_refl u, h1.trans h2⟩ ⟨h1, h2⟩ h1
    have b := hm ⟨h1, h2⟩ ⟨h1.trans h2, le_refl v⟩ h2
    rw [abs_le] at *
    constructor <;> linarith [hu.1, hv.2]
  have down : ∀ {u v : ℝ}, AntitoneOn accE (Icc u v) → |accE u| ≤ 0.017 → |accE v| ≤ 0.017 → u ≤ x → x ≤ v →
      |accE x| ≤ 0.017 := by
    intro u v hm hu hv h1 h2
    have a := hm ⟨le_refl u, h1.trans h2⟩ ⟨h1, h2⟩ h1
    have b := hm ⟨h1, h2⟩ ⟨h1.trans h2, le_refl v⟩ h2
    rw [abs_le] at *
    constructor <;> linarith [hu.2, hv.1]
  rcases le_total x 0.4109 with c1 | c1
  · refine up (accE_up (le_refl 0) (by norm_num) fun y hl hu => acc_piece0 ?_ ?_) ?_ (accE_win1 ⟨le_refl _, by norm_num⟩)
      h0 c1
    · norm_num at hl; norm_num; exact hl
    · norm_num at hu ⊢; exact hu
    · rw [show accE 0 = 0 by simp [accE, accG_zero]]; norm_num
  rcases le_total x 0.4110 with c2 | c2
  · exact accE_win1 ⟨c1, c2⟩
  rcases le_total x 0.8673 with c3 | c3
  · refine down (accE_down (by norm_num) (by norm_num) fun y hl hu => acc_piece1 ?_ ?_)
      (accE_win1 ⟨by norm_num, le_refl _⟩) (accE_win2 ⟨le_refl _, by norm_num⟩) c2 c3
    · norm_num at hl ⊢; exact hl
    · norm_num at hu ⊢; exact hu
  rcases le_total x 0.8674 with c4 | c4
  · exact accE_win2 ⟨c3, c4⟩
  rcases le_total x 0.9835 with c5 | c5
  · refine up (accE_up (by norm_num) (by norm_num) fun y hl hu => acc_piece2 ?_ ?_)
      (accE_win2 ⟨by norm_num, le_refl _⟩) (accE_win3 ⟨le_refl _, by norm_num⟩) c4 c5
    · norm_num at hl ⊢; exact hl
    · norm_num at hu ⊢; exact hu
  rcases le_total x 0.98355 with c6 | c6
  · exact accE_win3 ⟨c5, c6⟩
  rcases le_total x 0.99934 with c7 | c7
  · refine down (accE_down (by norm_num) (by norm_num) fun y hl hu => acc_piece3 ?_ ?_)
      (accE_win3 ⟨by norm_num, le_refl _⟩) (accE_win4 ⟨le_refl _, by norm_num⟩) c6 c7
    · norm_num at hl ⊢; exact hl
    · norm_num at hu ⊢; exact hu
  rcases le_total x 0.999345 with c8 | c8
  · exact accE_win4 ⟨c7, c8⟩
  refine up (accE_up (by norm_num) (le_refl 1) fun y hl hu => acc_piece4 ?_ ?_)
      (accE_win4 ⟨by norm_num, le_refl _⟩) (accE_one.trans (by norm_num)) c8 h1
  · norm_num at hl ⊢; exact hl
  · norm_num at hu ⊢; exact hu

theorem accG_neg (x : ℝ) : accG (-x) = -accG x := by
  unfold accG
  rw [show (-x) ^ 2 = x ^ 2 by ring, show (-x) ^ 4 = x ^ 4 by ring, ← neg_div]
  congr 1; ring

theorem accE_le_all {x : ℝ} (h0 : -1 ≤ x) (h1 : x ≤ 1) : |accE x| ≤ 0.017 := by
  rcases le_total 0 x with h | h
  · exact accE_le h h1
  · have := accE_le (x := -x) (by linarith) (by linarith)
    unfold accE at *
    rw [arcsin_neg, accG_neg] at this
    rwa [show -arcsin x - -accG x = -(arcsin x - accG x) by ring, abs_neg] at this

/-- `fast_acos` is defined on `[-1, 1]` and written with `accG`. -/
theorem fastAcos_eq {x : ℝ} (h0 : -1 ≤ x) (h1 : x ≤ 1) : fastAcos x = some (π / 2 - accG x) := by
  have hd := accDen_pos (y := x ^ 2) (by positivity) (by nlinarith)
  have e : (1 : ℝ) + -1.2845906244690837 * (x * x) + 0.295624144969963174 * (x * x * x) * x = accDen (x ^ 2) := by
    unfold accDen accC accD; ring
  unfold fastAcos
  simp only [e]
  rw [if_neg hd.ne']
  unfold accG
  rw [accDen_sq, neg_div, sub_neg_eq_add]
  congr 3
  unfold accA accB; ring

end Xo.Curves
