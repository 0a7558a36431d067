import Verif.Model.Ieee

/-!
# The mathematical constants (math/constants.hpp)

Every constant is a `constexpr double` with a decimal literal. A decimal literal of type `double` is rounded to the nearest
double, ties to even (the rounding every compiler for this library performs; the C++ standard permits the neighbours as well).

Not modelled: `mandelbrotArea`, which is only known to a few digits, and constants for whose definitions no fast series is at hand
(`meisselMertens`, `blochLandau`, `golombDickman`, `khinchin`, `mill`, `backhouse`, `mbr`). `FLT_MIN` and `DBL_MIN` are those of IEEE 754.
-/

namespace Verif.Constants

open Verif.Ieee

/-- The value of a literal of type `double`. For math/constants.hpp 5-60. -/
def lit (x : ℚ) : ℚ := rnd binary64 x

/-- constants.hpp 14 -/
def piSquaredOnSix : ℚ := lit 1.6449340668482264364724151666460251892189499012067984377355582293

/-- constants.hpp 17 -/
def radToDeg : ℚ := lit 57.295779513082320876798154814105170332405472466564321549160243861

/-- constants.hpp 20 -/
def degToRad : ℚ := lit 0.0174532925199432957692369076848861271344287188854172545609719144

/-- constants.hpp 23 -/
def pi : ℚ := lit 3.1415926535897932384626433832795028841971693993751058209749445923

/-- constants.hpp 26 -/
def sqrtPi : ℚ := lit 1.7724538509055160272981674833411451827975494561223871282138077898

/-- constants.hpp 29 -/
def tau : ℚ := lit 6.2831853071795864769252867665590057683943387987502116419498891846

/-- constants.hpp 32 -/
def halfPi : ℚ := lit 1.5707963267948966192313216916397514420985846996875529104874722961

/-- constants.hpp 35 -/
def twoPi : ℚ := lit 6.2831853071795864769252867665590057683943387987502116419498891846156

/-- constants.hpp 38 -/
def e : ℚ := lit 2.7182818284590452353602874713526624977572470936999595749669676277

/-- constants.hpp 41 -/
def sqrtE : ℚ := lit 1.6487212707001281468486507878141635716537761007101480115750793116

/-- constants.hpp 44 -/
def sqrt2 : ℚ := lit 1.4142135623730950488016887242096980785696718753769480731766797379

/-- constants.hpp 47 -/
def sqrt3 : ℚ := lit 1.7320508075688772935274463415058723669428052538103806280558069794

/-- constants.hpp 50 -/
def sqrt5 : ℚ := lit 2.2360679774997896964091736687312762354406183596115257242708972454

/-- constants.hpp 53 -/
def goldenRatio : ℚ := lit 1.6180339887498948482045868343656381177203091798057628621354486227

/-- constants.hpp 56 -/
def eulerMascheroni : ℚ := lit 0.5772156649015328606065120900824024310421593359399235988057672348

/-- constants.hpp 62 -/
def ln2 : ℚ := lit 0.6931471805599453094172321214581765680755001343602552541206800094

/-- constants.hpp 65 -/
def ln3 : ℚ := lit 1.0986122886681096913952452369225257046474905578227494517346943336

/-- constants.hpp 68 -/
def ln5 : ℚ := lit 1.6094379124341003746007593332261876395256013542685177219126478914

/-- constants.hpp 71 -/
def zeta3 : ℚ := lit 1.2020569031595942853997381615114499907649862923404988817922715553

/-- constants.hpp 74 -/
def cbrt2 : ℚ := lit 1.2599210498948731647672106072782283505702514647015079800819751121

/-- constants.hpp 77 -/
def cbrt3 : ℚ := lit 1.4422495703074083823216383107801095883918692534993505775464161945

/-- constants.hpp 86 -/
def wallisConstant : ℚ := lit 2.0945514815423265914823865405793029638573061056282391803041285290

/-- constants.hpp 89 -/
def laplaceLimit : ℚ := lit 0.6627434193491815809747420971092529070562335491150224175203925349

/-- constants.hpp 92 -/
def gaussConstant : ℚ := lit 0.8346268416740731862814297327990468089939930134903470024498273701

/-- constants.hpp 95 -/
def cahenConstant : ℚ := lit 0.6434105462883380261822543077575647632865878602682395059870309203

/-- constants.hpp 98 -/
def parabolic2 : ℚ := lit 2.2955871493926380740342980491894903875978322036385834839299753466

/-- constants.hpp 101 -/
def dottieNumber : ℚ := lit 0.7390851332151606416553120876738734040134117589007574649656806357

/-- constants.hpp 107 -/
def eToPi : ℚ := lit 23.140692632779269005729086367948547380266106242600211993445046409

/-- constants.hpp 110 -/
def goldenAngle : ℚ := lit 2.3999632297286533222315555066336138531249990110581150429351127507

/-- constants.hpp 128 -/
def twoToRoot2 : ℚ := lit 2.6651441426902251886502972498731398482742113137146594928359795933

/-- constants.hpp 137 -/
def piOnLn2 : ℚ := lit 4.5323601418271938096276829457166668101718614677237955841860165479

/-- constants.hpp 140 -/
def lochConstant : ℚ := lit 0.9702701143920339257402560192100108337812847047851612866103505299

/-- constants.hpp 146 -/
def recipFib : ℚ := lit 3.3598856662431775531720113029189271796889051337319684864955538153

/-- constants.hpp 158 -/
def plasticNumber : ℚ := lit 1.3247179572447460259609088544780973407344040569017333645340150503

/-- constants.hpp 7-8: `FLT_MIN` of binary32, converted to double -/
def epsilon32 : ℚ := lit (1 / 2 ^ 126)

/-- constants.hpp 10-11: `DBL_MIN` of binary64 -/
def epsilon64 : ℚ := lit (1 / 2 ^ 1022)

/-- constants.hpp 80 -/
def lightSpeed : ℚ := lit 299792458

/-- constants.hpp 83 -/
def earthGravity : ℚ := lit 9.80665

/-- constants.hpp 59 -/
def twinPrimes : ℚ := lit 0.6601618158468695739278121100145557784326233602847334133194484233

/-- constants.hpp 125 -/
def fellerTornier : ℚ := lit 0.6613170494696223352897658462741185332854752898329

/-- constants.hpp 143 -/
def nivenConstant : ℚ := lit 1.7052111401053677642885514534345081607620276516534690999942849065

/-- constants.hpp 116 -/
def gieseking : ℚ := lit 1.0149416064096536250212025542745202859416893075302997920174891067

/-- constants.hpp 155 -/
def quadRecurrence : ℚ := lit 1.6616879496335941212958189227499507499644186350250682081897111680

end Verif.Constants
