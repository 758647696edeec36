/-!
# The Butcher tableaux of `wx_factory/integrators/butcher.py`

Generated from the source text: every literal quotient is kept as an exact pair (numerator, denominator), in
lowest terms; decimal literals are converted to the fraction they denote.
Simplification: the code rounds every quotient to double precision.
-/

namespace WxVerif.RungeKutta

/-- a literal fraction: numerator and denominator -/
abbrev Frac := Int × Nat

/-- The class attributes of a `RungeKutta` subclass (`integrators/explicit_runge_kutta.py` 53–60).
    `Ehat` is the array written in the class body; `subB` says that the class body goes on with `E[:-1] -= B`. -/
structure Method where
  nStages : Nat
  order : Nat
  errOrder : Nat
  A : List (List Frac)
  B : List Frac
  C : List Frac
  Ehat : List Frac
  subB : Bool

/-- class `ExLRK43` (`integrators/butcher.py` 5–33) -/
def exLRK43 : Method where
  nStages := 4
  order := 4
  errOrder := 3
  A := [
    [(0, 1), (0, 1), (0, 1), (0, 1)],
    [(1, 2), (0, 1), (0, 1), (0, 1)],
    [(0, 1), (1, 2), (0, 1), (0, 1)],
    [(0, 1), (0, 1), (1, 1), (0, 1)]]
  B := [(1, 6), (1, 3), (1, 3), (1, 6)]
  C := [(0, 1), (1, 2), (1, 2), (1, 1)]
  Ehat := [(1, 6), (1, 3), (1, 3), (41, 300), (3, 100)]
  subB := true

/-- class `ExLRK32` (`integrators/butcher.py` 36–57) -/
def exLRK32 : Method where
  nStages := 3
  order := 3
  errOrder := 2
  A := [
    [(0, 1), (0, 1), (0, 1)],
    [(1, 2), (0, 1), (0, 1)],
    [(-1, 1), (2, 1), (0, 1)]]
  B := [(1, 6), (2, 3), (1, 6)]
  C := [(0, 1), (1, 2), (1, 1)]
  Ehat := [(1, 4), (1, 2), (1, 10), (3, 20)]
  subB := true

/-- class `KC32` (`integrators/butcher.py` 60–100) -/
def kC32 : Method where
  nStages := 4
  order := 3
  errOrder := 2
  A := [
    [(0, 1), (0, 1), (0, 1), (0, 1)],
    [(1767732205903, 2027836641118), (0, 1), (0, 1), (0, 1)],
    [(5535828885825, 10492691773637), (788022342437, 10882634858940), (0, 1), (0, 1)],
    [(6485989280629, 16251701735622), (-4246266847089, 9704473918619),
     (10755448449292, 10357097424841), (0, 1)]]
  B := [(1471266399579, 7840856788654), (-4482444167858, 7529755066697),
        (11266239266428, 11593286722821), (1767732205903, 4055673282236)]
  C := [(0, 1), (1767732205903, 2027836641118), (3, 5), (1, 1)]
  Ehat := [(1354963, 50000000), (11013521, 100000000), (-10306493, 100000000), (-683391, 20000000),
           (0, 1)]
  subB := false

/-- class `M43` (`integrators/butcher.py` 103–133) -/
def m43 : Method where
  nStages := 5
  order := 4
  errOrder := 3
  A := [
    [(0, 1), (0, 1), (0, 1), (0, 1), (0, 1)],
    [(1, 3), (0, 1), (0, 1), (0, 1), (0, 1)],
    [(1, 6), (1, 6), (0, 1), (0, 1), (0, 1)],
    [(1, 8), (0, 1), (3, 8), (0, 1), (0, 1)],
    [(1, 2), (0, 1), (-3, 2), (2, 1), (0, 1)]]
  B := [(1, 6), (0, 1), (0, 1), (2, 3), (1, 6)]
  C := [(0, 1), (1, 3), (1, 3), (1, 2), (1, 1)]
  Ehat := [(1, 10), (0, 1), (3, 10), (2, 5), (1, 5), (0, 1)]
  subB := true

/-- class `BS32` (`integrators/butcher.py` 136–144) -/
def bS32 : Method where
  nStages := 3
  order := 3
  errOrder := 2
  A := [
    [(0, 1), (0, 1), (0, 1)],
    [(1, 2), (0, 1), (0, 1)],
    [(0, 1), (3, 4), (0, 1)]]
  B := [(2, 9), (1, 3), (4, 9)]
  C := [(0, 1), (1, 2), (3, 4)]
  Ehat := [(5, 72), (-1, 12), (-1, 9), (1, 8)]
  subB := false

/-- class `DP54` (`integrators/butcher.py` 147–163) -/
def dP54 : Method where
  nStages := 6
  order := 5
  errOrder := 4
  A := [
    [(0, 1), (0, 1), (0, 1), (0, 1), (0, 1)],
    [(1, 5), (0, 1), (0, 1), (0, 1), (0, 1)],
    [(3, 40), (9, 40), (0, 1), (0, 1), (0, 1)],
    [(44, 45), (-56, 15), (32, 9), (0, 1), (0, 1)],
    [(19372, 6561), (-25360, 2187), (64448, 6561), (-212, 729), (0, 1)],
    [(9017, 3168), (-355, 33), (46732, 5247), (49, 176), (-5103, 18656)]]
  B := [(35, 384), (0, 1), (500, 1113), (125, 192), (-2187, 6784), (11, 84)]
  C := [(0, 1), (1, 5), (3, 10), (4, 5), (8, 9), (1, 1)]
  Ehat := [(-71, 57600), (0, 1), (71, 16695), (-71, 1920), (17253, 339200), (-22, 525), (1, 40)]
  subB := false

/-- class `F14_12` (`integrators/butcher.py` 166–1590) -/
def f14_12 : Method where
  nStages := 35
  order := 14
  errOrder := 12
  A := [
    [(0, 1), (0, 1), (0, 1), (0, 1), (0, 1), (0, 1), (0, 1), (0, 1), (0, 1), (0, 1), (0, 1),
     (0, 1), (0, 1), (0, 1), (0, 1), (0, 1), (0, 1), (0, 1), (0, 1), (0, 1), (0, 1), (0, 1),
     (0, 1), (0, 1), (0, 1), (0, 1), (0, 1), (0, 1), (0, 1), (0, 1), (0, 1), (0, 1), (0, 1),
     (0, 1), (0, 1)],
    [(1388888888888889, 12500000000000000), (0, 1), (0, 1), (0, 1), (0, 1), (0, 1), (0, 1),
     (0, 1), (0, 1), (0, 1), (0, 1), (0, 1), (0, 1), (0, 1), (0, 1), (0, 1), (0, 1), (0, 1),
     (0, 1), (0, 1), (0, 1), (0, 1), (0, 1), (0, 1), (0, 1), (0, 1), (0, 1), (0, 1), (0, 1),
     (0, 1), (0, 1), (0, 1), (0, 1), (0, 1), (0, 1)],
    [(-8333333333333333, 10000000000000000), (1388888888888889, 1000000000000000), (0, 1),
     (0, 1), (0, 1), (0, 1), (0, 1), (0, 1), (0, 1), (0, 1), (0, 1), (0, 1), (0, 1), (0, 1),
     (0, 1), (0, 1), (0, 1), (0, 1), (0, 1), (0, 1), (0, 1), (0, 1), (0, 1), (0, 1), (0, 1),
     (0, 1), (0, 1), (0, 1), (0, 1), (0, 1), (0, 1), (0, 1), (0, 1), (0, 1), (0, 1)],
    [(5208333333333333, 25000000000000000), (0, 1), (5, 8), (0, 1), (0, 1), (0, 1), (0, 1),
     (0, 1), (0, 1), (0, 1), (0, 1), (0, 1), (0, 1), (0, 1), (0, 1), (0, 1), (0, 1), (0, 1),
     (0, 1), (0, 1), (0, 1), (0, 1), (0, 1), (0, 1), (0, 1), (0, 1), (0, 1), (0, 1), (0, 1),
     (0, 1), (0, 1), (0, 1), (0, 1), (0, 1), (0, 1)],
    [(4833333333333333, 25000000000000000), (0, 1), (11, 50), (-2, 25), (0, 1), (0, 1),
     (0, 1), (0, 1), (0, 1), (0, 1), (0, 1), (0, 1), (0, 1), (0, 1), (0, 1), (0, 1), (0, 1),
     (0, 1), (0, 1), (0, 1), (0, 1), (0, 1), (0, 1), (0, 1), (0, 1), (0, 1), (0, 1), (0, 1),
     (0, 1), (0, 1), (0, 1), (0, 1), (0, 1), (0, 1), (0, 1)],
    [(1, 10), (0, 1), (0, 1), (2, 5), (1, 2), (0, 1), (0, 1), (0, 1), (0, 1), (0, 1), (0, 1),
     (0, 1), (0, 1), (0, 1), (0, 1), (0, 1), (0, 1), (0, 1), (0, 1), (0, 1), (0, 1), (0, 1),
     (0, 1), (0, 1), (0, 1), (0, 1), (0, 1), (0, 1), (0, 1), (0, 1), (0, 1), (0, 1), (0, 1),
     (0, 1), (0, 1)],
    [(5174228081833989, 50000000000000000), (0, 1), (0, 1),
     (6103444365320361, 50000000000000000), (6032181129140583, 12500000000000000),
     (-381409600015607, 10000000000000000), (0, 1), (0, 1), (0, 1), (0, 1), (0, 1), (0, 1),
     (0, 1), (0, 1), (0, 1), (0, 1), (0, 1), (0, 1), (0, 1), (0, 1), (0, 1), (0, 1), (0, 1),
     (0, 1), (0, 1), (0, 1), (0, 1), (0, 1), (0, 1), (0, 1), (0, 1), (0, 1), (0, 1), (0, 1),
     (0, 1)],
    [(77737829158809, 625000000000000), (0, 1), (0, 1), (0, 1),
     (2261202821975843, 10000000000000000), (1378858876180809, 100000000000000000),
     (-1680525334991711, 25000000000000000), (0, 1), (0, 1), (0, 1), (0, 1), (0, 1), (0, 1),
     (0, 1), (0, 1), (0, 1), (0, 1), (0, 1), (0, 1), (0, 1), (0, 1), (0, 1), (0, 1), (0, 1),
     (0, 1), (0, 1), (0, 1), (0, 1), (0, 1), (0, 1), (0, 1), (0, 1), (0, 1), (0, 1), (0, 1)],
    [(4684595328298369, 50000000000000000), (0, 1), (0, 1), (0, 1), (0, 1),
     (-613406843450511, 100000000000000000), (675061955079697, 3125000000000000),
     (331011768371689, 781250000000000), (0, 1), (0, 1), (0, 1), (0, 1), (0, 1), (0, 1),
     (0, 1), (0, 1), (0, 1), (0, 1), (0, 1), (0, 1), (0, 1), (0, 1), (0, 1), (0, 1), (0, 1),
     (0, 1), (0, 1), (0, 1), (0, 1), (0, 1), (0, 1), (0, 1), (0, 1), (0, 1), (0, 1)],
    [(8384798124090527, 100000000000000000), (0, 1), (0, 1), (0, 1), (0, 1),
     (-589746835504869, 50000000000000000), (-4945980411376253, 20000000000000000),
     (978080858367729, 10000000000000000), (1359941807771379, 6250000000000000), (0, 1),
     (0, 1), (0, 1), (0, 1), (0, 1), (0, 1), (0, 1), (0, 1), (0, 1), (0, 1), (0, 1), (0, 1),
     (0, 1), (0, 1), (0, 1), (0, 1), (0, 1), (0, 1), (0, 1), (0, 1), (0, 1), (0, 1), (0, 1),
     (0, 1), (0, 1), (0, 1)],
    [(3076276798847141, 50000000000000000), (0, 1), (0, 1), (0, 1), (0, 1),
     (592232780324503, 100000000000000000), (4703261599638411, 10000000000000000),
     (299688863848679, 1000000000000000), (-6191421939849873, 25000000000000000),
     (1386187872142971, 12500000000000000), (0, 1), (0, 1), (0, 1), (0, 1), (0, 1), (0, 1),
     (0, 1), (0, 1), (0, 1), (0, 1), (0, 1), (0, 1), (0, 1), (0, 1), (0, 1), (0, 1), (0, 1),
     (0, 1), (0, 1), (0, 1), (0, 1), (0, 1), (0, 1), (0, 1), (0, 1)],
    [(2098500366813913, 50000000000000000), (0, 1), (0, 1), (0, 1), (0, 1),
     (-63597539253241, 20000000000000000), (50399857181637, 62500000000000),
     (975983126412389, 10000000000000000), (7785755781583989, 10000000000000000),
     (2561130297894993, 12500000000000000), (-781307898137341, 500000000000000), (0, 1),
     (0, 1), (0, 1), (0, 1), (0, 1), (0, 1), (0, 1), (0, 1), (0, 1), (0, 1), (0, 1), (0, 1),
     (0, 1), (0, 1), (0, 1), (0, 1), (0, 1), (0, 1), (0, 1), (0, 1), (0, 1), (0, 1), (0, 1),
     (0, 1)],
    [(2188633911168651, 50000000000000000), (0, 1), (0, 1), (0, 1), (0, 1), (0, 1), (0, 1),
     (0, 1), (124873005504039, 20000000000000000), (5001077427739433, 25000000000000000),
     (-805328367804983, 100000000000000000), (423035056134793, 20000000000000000), (0, 1),
     (0, 1), (0, 1), (0, 1), (0, 1), (0, 1), (0, 1), (0, 1), (0, 1), (0, 1), (0, 1), (0, 1),
     (0, 1), (0, 1), (0, 1), (0, 1), (0, 1), (0, 1), (0, 1), (0, 1), (0, 1), (0, 1), (0, 1)],
    [(1417496251817573, 50000000000000000), (0, 1), (0, 1), (0, 1), (0, 1), (0, 1), (0, 1),
     (0, 1), (249163204855817, 100000000000000000), (2301387878545931, 100000000000000000),
     (-322155956692977, 100000000000000000), (197688509889533, 20000000000000000),
     (-1065053856644437, 50000000000000000), (0, 1), (0, 1), (0, 1), (0, 1), (0, 1), (0, 1),
     (0, 1), (0, 1), (0, 1), (0, 1), (0, 1), (0, 1), (0, 1), (0, 1), (0, 1), (0, 1), (0, 1),
     (0, 1), (0, 1), (0, 1), (0, 1), (0, 1)],
    [(343511894290243, 1000000000000000), (0, 1), (0, 1), (0, 1), (0, 1), (0, 1), (0, 1),
     (0, 1), (1052259560118137, 5000000000000000), (6464215753576901, 6250000000000000),
     (300151822932211, 50000000000000000), (2139845312749049, 2500000000000000),
     (-9772350050367669, 10000000000000000), (-6600269804792947, 10000000000000000), (0, 1),
     (0, 1), (0, 1), (0, 1), (0, 1), (0, 1), (0, 1), (0, 1), (0, 1), (0, 1), (0, 1), (0, 1),
     (0, 1), (0, 1), (0, 1), (0, 1), (0, 1), (0, 1), (0, 1), (0, 1), (0, 1)],
    [(-1435740016721681, 100000000000000000), (0, 1), (0, 1), (0, 1), (0, 1), (0, 1), (0, 1),
     (0, 1), (-4578165875613, 125000000000000), (3502549756362137, 100000000000000000),
     (721892032724227, 20000000000000000), (-2652199675536811, 100000000000000000),
     (4456990113056981, 100000000000000000), (777144333320989, 6250000000000000),
     (413829693239481, 100000000000000000), (0, 1), (0, 1), (0, 1), (0, 1), (0, 1), (0, 1),
     (0, 1), (0, 1), (0, 1), (0, 1), (0, 1), (0, 1), (0, 1), (0, 1), (0, 1), (0, 1), (0, 1),
     (0, 1), (0, 1), (0, 1)],
    [(8900810110628007, 25000000000000000), (0, 1), (0, 1), (0, 1), (0, 1), (0, 1), (0, 1),
     (0, 1), (-2250963794737813, 5000000000000000), (4305279070837109, 10000000000000000),
     (3199831431318889, 6250000000000000), (5676897743040027, 6250000000000000),
     (-7745068335745871, 6250000000000000), (-3245243308358807, 5000000000000000),
     (2517089045868193, 10000000000000000), (974883087931983, 1250000000000000), (0, 1),
     (0, 1), (0, 1), (0, 1), (0, 1), (0, 1), (0, 1), (0, 1), (0, 1), (0, 1), (0, 1), (0, 1),
     (0, 1), (0, 1), (0, 1), (0, 1), (0, 1), (0, 1), (0, 1)],
    [(1309356874065131, 100000000000000000), (0, 1), (0, 1), (0, 1), (0, 1), (0, 1), (0, 1),
     (0, 1), (0, 1), (0, 1), (0, 1), (0, 1), (-9320530679851, 100000000000000000),
     (2526871671311497, 50000000000000000), (40223517097, 50000000000000000),
     (59172602949417, 100000000000000000), (-8032294443, 20000000000000000), (0, 1), (0, 1),
     (0, 1), (0, 1), (0, 1), (0, 1), (0, 1), (0, 1), (0, 1), (0, 1), (0, 1), (0, 1), (0, 1),
     (0, 1), (0, 1), (0, 1), (0, 1), (0, 1)],
    [(207926484466053, 10000000000000000), (0, 1), (0, 1), (0, 1), (0, 1), (0, 1), (0, 1),
     (0, 1), (0, 1), (0, 1), (0, 1), (0, 1), (58269591880009, 100000000000000000),
     (-25053147886213, 3125000000000000), (403847643847, 100000000000000000),
     (8546099980555061, 100000000000000000), (-25560810117, 12500000000000000),
     (2633214470610797, 25000000000000000), (0, 1), (0, 1), (0, 1), (0, 1), (0, 1), (0, 1),
     (0, 1), (0, 1), (0, 1), (0, 1), (0, 1), (0, 1), (0, 1), (0, 1), (0, 1), (0, 1), (0, 1)],
    [(7007672489786801, 5000000000000000), (0, 1), (0, 1), (0, 1), (0, 1), (0, 1), (0, 1),
     (0, 1), (0, 1), (0, 1), (0, 1), (0, 1), (-1439075006151383, 6250000000000000),
     (-7211068404669129, 1000000000000000), (93225390173709, 25000000000000000),
     (-3771323965817, 800000000000), (-176367657545349, 100000000000000000),
     (1910326370096747, 250000000000000), (7012040873195037, 2000000000000000), (0, 1),
     (0, 1), (0, 1), (0, 1), (0, 1), (0, 1), (0, 1), (0, 1), (0, 1), (0, 1), (0, 1), (0, 1),
     (0, 1), (0, 1), (0, 1), (0, 1)],
    [(2987866267353017, 250000000000000), (0, 1), (0, 1), (0, 1), (0, 1), (0, 1), (0, 1),
     (0, 1), (0, 1), (0, 1), (0, 1), (0, 1), (48717558256761, 6250000000000),
     (-2258005575469303, 40000000000000), (570235191831653, 6250000000000000),
     (-49740734345873, 3906250000000), (-3968959219047197, 100000000000000000),
     (5443921418835709, 100000000000000), (-911029094803923, 250000000000000),
     (-8045032499105099, 10000000000000000), (0, 1), (0, 1), (0, 1), (0, 1), (0, 1), (0, 1),
     (0, 1), (0, 1), (0, 1), (0, 1), (0, 1), (0, 1), (0, 1), (0, 1), (0, 1)],
    [(-14880942650710049, 100000000000000), (0, 1), (0, 1), (0, 1), (0, 1), (0, 1), (0, 1),
     (0, 1), (0, 1), (0, 1), (0, 1), (0, 1), (-22932381957281413, 250000000000000),
     (442285090607249, 625000000000), (-2211272237149649, 2000000000000000),
     (17613459188381137, 100000000000000), (2456924121074403, 5000000000000000),
     (-17106950011245373, 25000000000000), (27991060499839827, 1000000000000000),
     (6596985501514117, 500000000000000), (2502575625679609, 2000000000000000), (0, 1),
     (0, 1), (0, 1), (0, 1), (0, 1), (0, 1), (0, 1), (0, 1), (0, 1), (0, 1), (0, 1), (0, 1),
     (0, 1), (0, 1)],
    [(-12091349336852459, 1250000000000000), (0, 1), (0, 1), (0, 1), (0, 1), (0, 1), (0, 1),
     (0, 1), (0, 1), (0, 1), (0, 1), (0, 1), (-22349507542925277, 5000000000000000),
     (4551271286909527, 100000000000000), (-7130850861838269, 100000000000000000),
     (1754275219818949, 156250000000000), (394513677242571, 3125000000000000),
     (-27214958721842707, 625000000000000), (787174307543059, 1000000000000000),
     (6653308709308553, 12500000000000000), (5280284174954067, 12500000000000000),
     (8591312495030671, 100000000000000000), (0, 1), (0, 1), (0, 1), (0, 1), (0, 1), (0, 1),
     (0, 1), (0, 1), (0, 1), (0, 1), (0, 1), (0, 1), (0, 1)],
    [(-6291502027940919, 625000000000000), (0, 1), (0, 1), (0, 1), (0, 1), (0, 1), (0, 1),
     (0, 1), (-4578165875613, 125000000000000), (3502549756362137, 100000000000000000),
     (721892032724227, 20000000000000000), (-2652199675536811, 100000000000000000),
     (-3919306076134151, 625000000000000), (482079237442563, 10000000000000),
     (-868089611420207, 12500000000000000), (1268106902048503, 100000000000000),
     (598355844841619, 50000000000000000), (-584062206240603, 12500000000000),
     (1330296133266267, 1000000000000000), (1007667875033983, 1000000000000000),
     (2095120519336651, 100000000000000000), (1050673531656321, 50000000000000000),
     (476098007208561, 50000000000000000), (0, 1), (0, 1), (0, 1), (0, 1), (0, 1), (0, 1),
     (0, 1), (0, 1), (0, 1), (0, 1), (0, 1), (0, 1)],
    [(-4094780816777437, 10000000000000), (0, 1), (0, 1), (0, 1), (0, 1), (0, 1), (0, 1),
     (0, 1), (1052259560118137, 5000000000000000), (6464215753576901, 6250000000000000),
     (300151822932211, 50000000000000000), (2139845312749049, 2500000000000000),
     (-5010339970948957, 20000000000000), (9732123332619421, 5000000000000),
     (-15225194105115517, 5000000000000000), (6132829744103521, 12500000000000),
     (1566475895312709, 1000000000000000), (-4704935724850279, 2500000000000),
     (940740280906059, 12500000000000), (2160839731127069, 62500000000000),
     (250896624563257, 78125000000000), (-287755026086509, 625000000000000),
     (-1741436679683621, 20000000000000000), (-9241897676978789, 1250000000000000), (0, 1),
     (0, 1), (0, 1), (0, 1), (0, 1), (0, 1), (0, 1), (0, 1), (0, 1), (0, 1), (0, 1)],
    [(6866949517071017, 2000000000000000), (0, 1), (0, 1), (0, 1), (0, 1), (0, 1), (0, 1),
     (0, 1), (249163204855817, 100000000000000000), (2301387878545931, 100000000000000000),
     (-322155956692977, 100000000000000000), (197688509889533, 20000000000000000),
     (2703159992224031, 1250000000000000), (-8134993227322871, 500000000000000),
     (-2570690042410491, 20000000000000000), (-4494575213332521, 500000000000000),
     (-13943814529281, 4000000000000000), (789680970566699, 50000000000000),
     (-114880666182819, 200000000000000), (-3456020390213933, 10000000000000000),
     (-132448298041317, 20000000000000000), (-194447032310551, 25000000000000000),
     (-14243367696091, 4000000000000000), (1198206266124827, 250000000000000),
     (7686273243653429, 50000000000000000), (0, 1), (0, 1), (0, 1), (0, 1), (0, 1), (0, 1),
     (0, 1), (0, 1), (0, 1), (0, 1)],
    [(16151926043599273, 500000000000000), (0, 1), (0, 1), (0, 1), (0, 1),
     (-63597539253241, 20000000000000000), (50399857181637, 62500000000000),
     (975983126412389, 10000000000000000), (7785755781583989, 10000000000000000),
     (2561130297894993, 12500000000000000), (-781307898137341, 500000000000000), (0, 1),
     (8171494594115529, 500000000000000), (-15454455529354363, 100000000000000),
     (981069304395843, 625000000000000), (3276855450872481, 1000000000000000),
     (-1258723112984133, 25000000000000000), (15332115185804167, 100000000000000),
     (4484801164548253, 625000000000000), (-459432419805157, 156250000000000),
     (-6658459460768031, 100000000000000000), (-4623460549908437, 100000000000000000),
     (-1020993667928397, 50000000000000000), (-10670462128774717, 200000000000000),
     (-6777435735753933, 5000000000000000), (-1228095904697131, 781250000000000), (0, 1),
     (0, 1), (0, 1), (0, 1), (0, 1), (0, 1), (0, 1), (0, 1), (0, 1)],
    [(-332902934972683, 20000000000000), (0, 1), (0, 1), (0, 1), (0, 1),
     (592232780324503, 100000000000000000), (4703261599638411, 10000000000000000),
     (299688863848679, 1000000000000000), (-6191421939849873, 25000000000000000),
     (1386187872142971, 12500000000000000), (0, 1), (-1229297609615573, 2500000000000000),
     (-229486308854579, 20000000000000), (3210372666304921, 40000000000000),
     (-7682646079600857, 20000000000000000), (291259066987243, 40000000000000),
     (-6634969230612419, 50000000000000000), (-8107998325257307, 100000000000000),
     (-781484330222629, 625000000000000), (50637420892489, 19531250000000),
     (-3768003729330057, 12500000000000000), (345913219984113, 1562500000000000),
     (8275772747718929, 100000000000000000), (593627068876911, 31250000000000),
     (2692319464096397, 10000000000000000), (16267482744706653, 10000000000000000),
     (1229297609615573, 2500000000000000), (0, 1), (0, 1), (0, 1), (0, 1), (0, 1), (0, 1),
     (0, 1), (0, 1)],
    [(8384798124090527, 100000000000000000), (0, 1), (0, 1), (0, 1), (0, 1),
     (-589746835504869, 50000000000000000), (-4945980411376253, 20000000000000000),
     (978080858367729, 10000000000000000), (1359941807771379, 6250000000000000), (0, 1),
     (6879280338166261, 50000000000000000), (4398702297150467, 100000000000000000), (0, 1),
     (-6421260172102417, 12500000000000000), (1652711382302631, 2000000000000000),
     (200795421656103, 7812500000000), (0, 1), (0, 1), (0, 1), (0, 1), (0, 1), (0, 1), (0, 1),
     (-200795421656103, 7812500000000), (-1652711382302631, 2000000000000000),
     (6421260172102417, 12500000000000000), (-4398702297150467, 100000000000000000),
     (-6879280338166261, 50000000000000000), (0, 1), (0, 1), (0, 1), (0, 1), (0, 1), (0, 1),
     (0, 1)],
    [(77737829158809, 625000000000000), (0, 1), (0, 1), (0, 1),
     (2261202821975843, 10000000000000000), (1378858876180809, 100000000000000000),
     (-1680525334991711, 25000000000000000), (0, 1), (0, 1),
     (-2140597437713571, 2500000000000000), (-1963375228668589, 1000000000000000),
     (-1161664113620597, 5000000000000000), (0, 1), (2153303595432267, 500000000000000),
     (-585445926498931, 200000000000000), (-823131666397859, 10000000000000), (0, 1), (0, 1),
     (0, 1), (0, 1), (0, 1), (0, 1), (0, 1), (823131666397859, 10000000000000),
     (585445926498931, 200000000000000), (-2153303595432267, 500000000000000),
     (1161664113620597, 5000000000000000), (1963375228668589, 1000000000000000),
     (2140597437713571, 2500000000000000), (0, 1), (0, 1), (0, 1), (0, 1), (0, 1), (0, 1)],
    [(5174228081833989, 50000000000000000), (0, 1), (0, 1),
     (6103444365320361, 50000000000000000), (6032181129140583, 12500000000000000),
     (-381409600015607, 10000000000000000), (0, 1), (-6881244066385029, 12500000000000000),
     (0, 1), (-1779789528962973, 2500000000000000), (-2920648028357757, 5000000000000000),
     (0, 1), (0, 1), (5276157703146623, 2500000000000000),
     (-8374947367395721, 100000000000000000), (5100214990723209, 1000000000000000), (0, 1),
     (0, 1), (0, 1), (0, 1), (0, 1), (0, 1), (0, 1), (-5100214990723209, 1000000000000000),
     (8374947367395721, 100000000000000000), (-5276157703146623, 2500000000000000), (0, 1),
     (2920648028357757, 5000000000000000), (1779789528962973, 2500000000000000),
     (6881244066385029, 12500000000000000), (0, 1), (0, 1), (0, 1), (0, 1), (0, 1)],
    [(4833333333333333, 25000000000000000), (0, 1), (11, 50), (-2, 25), (0, 1), (0, 1),
     (1099934255807247, 10000000000000000), (-3178713100953377, 12500000000000000), (0, 1),
     (3462283108466777, 4000000000000000), (16620822455704653, 5000000000000000), (0, 1),
     (0, 1), (-12010222331597793, 1000000000000000), (2978759164015583, 6250000000000000),
     (-725607528052591, 25000000000000), (0, 1), (0, 1), (0, 1), (0, 1), (0, 1), (0, 1),
     (0, 1), (725607528052591, 25000000000000), (-2978759164015583, 6250000000000000),
     (12010222331597793, 1000000000000000), (0, 1), (-16620822455704653, 5000000000000000),
     (-3462283108466777, 4000000000000000), (3178713100953377, 12500000000000000),
     (-1099934255807247, 10000000000000000), (0, 1), (0, 1), (0, 1), (0, 1)],
    [(-8333333333333333, 10000000000000000), (1388888888888889, 1000000000000000), (0, 1),
     (0, 1), (-3, 4), (0, 1), (-4925295437180263, 10000000000000000), (0, 1), (0, 1), (0, 1),
     (0, 1), (0, 1), (0, 1), (0, 1), (0, 1), (0, 1), (0, 1), (0, 1), (0, 1), (0, 1), (0, 1),
     (0, 1), (0, 1), (0, 1), (0, 1), (0, 1), (0, 1), (0, 1), (0, 1), (0, 1),
     (4925295437180263, 10000000000000000), (3, 4), (0, 1), (0, 1), (0, 1)],
    [(1388888888888889, 12500000000000000), (0, 1), (-1388888888888889, 6250000000000000),
     (0, 1), (0, 1), (0, 1), (0, 1), (0, 1), (0, 1), (0, 1), (0, 1), (0, 1), (0, 1), (0, 1),
     (0, 1), (0, 1), (0, 1), (0, 1), (0, 1), (0, 1), (0, 1), (0, 1), (0, 1), (0, 1), (0, 1),
     (0, 1), (0, 1), (0, 1), (0, 1), (0, 1), (0, 1), (0, 1),
     (1388888888888889, 6250000000000000), (0, 1), (0, 1)],
    [(7145878509724289, 25000000000000000), (7291666666666667, 25000000000000000), (7, 32),
     (0, 1), (21, 128), (0, 1), (1363714718409729, 6250000000000000),
     (1127455615491861, 6250000000000000), (0, 1), (2571422992560563, 12500000000000000),
     (94810856086629, 390625000000000), (6161644520340733, 25000000000000000),
     (-862479851977227, 250000000000000), (2860944527000451, 12500000000000000),
     (3541132496276893, 12500000000000000), (16054256291888333, 5000000000000000),
     (-2235387773648457, 10000000000000000), (-707121157204419, 1000000000000000),
     (8028083628757177, 2500000000000000), (220241169233859, 156250000000000),
     (-756810267218713, 5000000000000000), (2327191090793839, 6250000000000000),
     (3162234330079517, 12500000000000000), (-16054256291888333, 5000000000000000),
     (-3541132496276893, 12500000000000000), (-2860944527000451, 12500000000000000),
     (-6161644520340733, 25000000000000000), (-94810856086629, 390625000000000),
     (-2571422992560563, 12500000000000000), (-1127455615491861, 6250000000000000),
     (-1363714718409729, 6250000000000000), (-21, 128), (-7, 32),
     (-7291666666666667, 25000000000000000), (0, 1)]]
  B := [(892857142857143, 50000000000000000), (3, 512), (3, 256), (0, 1), (9, 512), (0, 1),
        (3, 128), (15, 512), (0, 1), (9, 256), (21, 512), (3, 64), (0, 1), (27, 512), (15, 256),
        (33, 512), (0, 1), (5267605678587651, 50000000000000000),
        (8528067312087609, 50000000000000000), (2577867466616899, 12500000000000000),
        (2577867466616899, 12500000000000000), (8528067312087609, 50000000000000000),
        (5267605678587651, 50000000000000000), (-33, 512), (-15, 256), (-27, 512), (-3, 64),
        (-21, 512), (-9, 256), (-15, 512), (-3, 128), (-9, 512), (-3, 256), (-3, 512),
        (892857142857143, 50000000000000000)]
  C := [(0, 1), (1388888888888889, 12500000000000000), (1736111111111111, 3125000000000000),
        (8333333333333333, 10000000000000000), (8333333333333333, 25000000000000000), (1, 1),
        (4187418620454831, 6250000000000000), (7426709605345459, 25000000000000000),
        (909090909090909, 1250000000000000), (3503819976054719, 25000000000000000),
        (2189690749281721, 3125000000000000), (2272727272727273, 6250000000000000),
        (6578947368421053, 25000000000000000), (3921722466502709, 100000000000000000),
        (1016146878660471, 1250000000000000), (4166666666666667, 25000000000000000), (9, 10),
        (6412992574519669, 100000000000000000), (4082998185668577, 20000000000000000),
        (4941879888109507, 12500000000000000), (7558120111890493, 12500000000000000),
        (497406306697857, 625000000000000), (4679350371274017, 5000000000000000),
        (4166666666666667, 25000000000000000), (1016146878660471, 1250000000000000),
        (3921722466502709, 100000000000000000), (2272727272727273, 6250000000000000),
        (2189690749281721, 3125000000000000), (3503819976054719, 25000000000000000),
        (7426709605345459, 25000000000000000), (4187418620454831, 6250000000000000),
        (8333333333333333, 25000000000000000), (1736111111111111, 3125000000000000),
        (1388888888888889, 12500000000000000), (1, 1)]
  Ehat := [(892857142857143, 50000000000000000), (311, 64000), (3, 256), (0, 1), (9, 512), (0, 1),
           (3, 128), (15, 512), (0, 1), (9, 256), (21, 512), (3, 64), (0, 1), (27, 512), (15, 256),
           (33, 512), (0, 1), (5267605678587651, 50000000000000000),
           (8528067312087609, 50000000000000000), (2577867466616899, 12500000000000000),
           (2577867466616899, 12500000000000000), (8528067312087609, 50000000000000000),
           (5267605678587651, 50000000000000000), (-33, 512), (-15, 256), (-27, 512), (-3, 64),
           (-21, 512), (-9, 256), (-15, 512), (-3, 128), (-9, 512), (-3, 256), (-311, 64000),
           (892857142857143, 50000000000000000), (0, 1)]
  subB := true

/-- class `DP87` (`integrators/butcher.py` 1593–1834) -/
def dP87 : Method where
  nStages := 13
  order := 8
  errOrder := 7
  A := [
    [(0, 1), (0, 1), (0, 1), (0, 1), (0, 1), (0, 1), (0, 1), (0, 1), (0, 1), (0, 1), (0, 1),
     (0, 1), (0, 1)],
    [(1, 18), (0, 1), (0, 1), (0, 1), (0, 1), (0, 1), (0, 1), (0, 1), (0, 1), (0, 1), (0, 1),
     (0, 1), (0, 1)],
    [(1, 48), (1, 16), (0, 1), (0, 1), (0, 1), (0, 1), (0, 1), (0, 1), (0, 1), (0, 1), (0, 1),
     (0, 1), (0, 1)],
    [(1, 32), (0, 1), (3, 32), (0, 1), (0, 1), (0, 1), (0, 1), (0, 1), (0, 1), (0, 1), (0, 1),
     (0, 1), (0, 1)],
    [(5, 16), (0, 1), (-75, 64), (75, 64), (0, 1), (0, 1), (0, 1), (0, 1), (0, 1), (0, 1),
     (0, 1), (0, 1), (0, 1)],
    [(3, 80), (0, 1), (0, 1), (3, 16), (3, 20), (0, 1), (0, 1), (0, 1), (0, 1), (0, 1),
     (0, 1), (0, 1), (0, 1)],
    [(29443841, 614563906), (0, 1), (0, 1), (77736538, 692538347), (-28693883, 1125000000),
     (23124283, 1800000000), (0, 1), (0, 1), (0, 1), (0, 1), (0, 1), (0, 1), (0, 1)],
    [(16016141, 946692911), (0, 1), (0, 1), (61564180, 158732637), (22789713, 633445777),
     (545815736, 2771057229), (-180193667, 1043307555), (0, 1), (0, 1), (0, 1), (0, 1),
     (0, 1), (0, 1)],
    [(39632708, 573591083), (0, 1), (0, 1), (-433636366, 683701615), (-421739975, 2616292301),
     (100302831, 723423059), (790204164, 839813087), (800635310, 3783071287), (0, 1), (0, 1),
     (0, 1), (0, 1), (0, 1)],
    [(246121993, 1340847787), (0, 1), (0, 1), (-37695042795, 15268766246),
     (-309121744, 1061227803), (-12992083, 490766935), (6005943493, 2108947869),
     (393006217, 1396673457), (123872331, 1001029789), (0, 1), (0, 1), (0, 1), (0, 1)],
    [(-1028468189, 846180014), (0, 1), (0, 1), (8478235783, 508512852),
     (1311729495, 1432422823), (-10304129995, 1701304382), (-48777925059, 3047939560),
     (15336726248, 1032824649), (-45442868181, 3398467696), (3065993473, 597172653), (0, 1),
     (0, 1), (0, 1)],
    [(185892177, 718116043), (0, 1), (0, 1), (-3185094517, 667107341),
     (-477755414, 1098053517), (-703635378, 230739211), (5731566787, 1027545527),
     (5232866602, 850066563), (-4093664535, 808688257), (3962137247, 1805957418),
     (65686358, 487910083), (0, 1), (0, 1)],
    [(403863854, 491063109), (0, 1), (0, 1), (-5068492393, 434740067),
     (-411421997, 543043805), (652783627, 914296604), (11173962825, 925320556),
     (-13158990841, 6184727034), (3936647629, 1978049680), (-160528059, 685178525),
     (248638103, 1413531060), (0, 1), (0, 1)]]
  B := [(13451932, 455176623), (0, 1), (0, 1), (0, 1), (0, 1), (-808719846, 976000145),
        (1757004468, 5645159321), (656045339, 265891186), (-3867574721, 1518517206),
        (465885868, 322736535), (53011238, 667516719), (2, 45), (0, 1)]
  C := [(0, 1), (1, 18), (1, 12), (1, 8), (5, 16), (3, 8), (59, 400), (93, 200),
        (5490023248, 9719169821), (13, 20), (1201146811, 1299019798), (1, 1), (1, 1)]
  Ehat := [(14005451, 335480064), (0, 1), (0, 1), (0, 1), (0, 1), (-59238493, 1068277825),
           (181606767, 758867731), (561292985, 797845732), (-1041891430, 1371343529),
           (760417239, 1151165299), (118820643, 751138087), (-528747749, 2220607170), (1, 4),
           (0, 1)]
  subB := true

/-- class `F10_8` (`integrators/butcher.py` 1837–2279) -/
def f10_8 : Method where
  nStages := 17
  order := 10
  errOrder := 8
  A := [
    [(0, 1), (0, 1), (0, 1), (0, 1), (0, 1), (0, 1), (0, 1), (0, 1), (0, 1), (0, 1), (0, 1),
     (0, 1), (0, 1), (0, 1), (0, 1), (0, 1), (0, 1)],
    [(1, 10), (0, 1), (0, 1), (0, 1), (0, 1), (0, 1), (0, 1), (0, 1), (0, 1), (0, 1), (0, 1),
     (0, 1), (0, 1), (0, 1), (0, 1), (0, 1), (0, 1)],
    [(-22879414034382287, 25000000000000000), (14545344021782733, 10000000000000000), (0, 1),
     (0, 1), (0, 1), (0, 1), (0, 1), (0, 1), (0, 1), (0, 1), (0, 1), (0, 1), (0, 1), (0, 1),
     (0, 1), (0, 1), (0, 1)],
    [(2528239878763977, 12500000000000000), (0, 1), (1213555141806709, 2000000000000000),
     (0, 1), (0, 1), (0, 1), (0, 1), (0, 1), (0, 1), (0, 1), (0, 1), (0, 1), (0, 1), (0, 1),
     (0, 1), (0, 1), (0, 1)],
    [(36804942941728717, 200000000000000000), (0, 1), (4949170780679809, 25000000000000000),
     (-18238696182840817, 250000000000000000), (0, 1), (0, 1), (0, 1), (0, 1), (0, 1), (0, 1),
     (0, 1), (0, 1), (0, 1), (0, 1), (0, 1), (0, 1), (0, 1)],
    [(8790073402066813, 100000000000000000), (0, 1), (0, 1),
     (2052298512601303, 5000000000000000), (12067843841971663, 25000000000000000), (0, 1),
     (0, 1), (0, 1), (0, 1), (0, 1), (0, 1), (0, 1), (0, 1), (0, 1), (0, 1), (0, 1), (0, 1)],
    [(5373128155640377, 62500000000000000), (0, 1), (0, 1),
     (1654429815203611, 5000000000000000), (6120786966368127, 12500000000000000),
     (-1829640937677127, 25000000000000000), (0, 1), (0, 1), (0, 1), (0, 1), (0, 1), (0, 1),
     (0, 1), (0, 1), (0, 1), (0, 1), (0, 1)],
    [(3023261228133343, 25000000000000000), (0, 1), (0, 1), (0, 1),
     (650311689395739, 2500000000000000), (8135065538727283, 250000000000000000),
     (-1861813161929253, 31250000000000000), (0, 1), (0, 1), (0, 1), (0, 1), (0, 1), (0, 1),
     (0, 1), (0, 1), (0, 1), (0, 1)],
    [(11085437958039149, 100000000000000000), (0, 1), (0, 1), (0, 1), (0, 1),
     (-757201860318757, 12500000000000000), (402204632002223, 1250000000000000),
     (25524286280403153, 50000000000000000), (0, 1), (0, 1), (0, 1), (0, 1), (0, 1), (0, 1),
     (0, 1), (0, 1), (0, 1)],
    [(112054414752879, 1000000000000000), (0, 1), (0, 1), (0, 1), (0, 1),
     (-56618271837057, 390625000000000), (-3332697190962567, 10000000000000000),
     (4992692295568801, 10000000000000000), (1592201902905269, 3125000000000000), (0, 1),
     (0, 1), (0, 1), (0, 1), (0, 1), (0, 1), (0, 1), (0, 1)],
    [(5698839198209299, 50000000000000000), (0, 1), (0, 1), (0, 1), (0, 1),
     (-768813364203357, 10000000000000000), (23952736032439067, 100000000000000000),
     (1988873311840473, 5000000000000000), (13444869609200931, 1250000000000000000),
     (-3277691241640189, 10000000000000000), (0, 1), (0, 1), (0, 1), (0, 1), (0, 1), (0, 1),
     (0, 1)],
    [(779604031523629, 9765625000000000), (0, 1), (0, 1), (0, 1), (0, 1),
     (-10406593736012061, 200000000000000000), (-5769541461685489, 100000000000000000),
     (1217386973200651, 6250000000000000), (14538492318832507, 100000000000000000),
     (-1529184981155607, 19531250000000000), (-2862582484027473, 25000000000000000), (0, 1),
     (0, 1), (0, 1), (0, 1), (0, 1), (0, 1)],
    [(2462789025412143, 2500000000000000), (0, 1), (0, 1),
     (1654429815203611, 5000000000000000), (6120786966368127, 12500000000000000),
     (-3447412164371089, 2500000000000000), (-8611641950276357, 10000000000000000),
     (57842881363753723, 10000000000000000), (822019404962759, 250000000000000),
     (-596584762732841, 250000000000000), (-13019173699345757, 4000000000000000),
     (-216343541686423, 100000000000000), (0, 1), (0, 1), (0, 1), (0, 1), (0, 1)],
    [(17901605915432657, 20000000000000000), (0, 1), (4949170780679809, 25000000000000000),
     (-18238696182840817, 250000000000000000), (0, 1), (-2128090599155019, 2500000000000000),
     (9958002807963333, 25000000000000000), (909843157952589, 250000000000000),
     (6192915081593213, 4000000000000000), (-10611085735202687, 5000000000000000),
     (-7917519927266309, 5000000000000000), (-8578080414296813, 5000000000000000),
     (-12201820287506373, 500000000000000000), (0, 1), (0, 1), (0, 1), (0, 1)],
    [(-22879414034382287, 25000000000000000), (14545344021782733, 10000000000000000), (0, 1),
     (0, 1), (-7773336436449683, 10000000000000000), (0, 1),
     (-113861957769397, 1250000000000000), (0, 1), (0, 1), (0, 1), (0, 1), (0, 1),
     (113861957769397, 1250000000000000), (7773336436449683, 10000000000000000), (0, 1),
     (0, 1), (0, 1)],
    [(1, 10), (0, 1), (-3929466644994279, 25000000000000000), (0, 1), (0, 1), (0, 1), (0, 1),
     (0, 1), (0, 1), (0, 1), (0, 1), (0, 1), (0, 1), (0, 1),
     (3929466644994279, 25000000000000000), (0, 1), (0, 1)],
    [(2272266258751191, 12500000000000000), (27, 40), (4284476998089873, 12500000000000000),
     (0, 1), (1036444858193291, 4000000000000000), (-3582789667179521, 10000000000000000),
     (-20918979188176663, 20000000000000000), (930327845415627, 1000000000000000),
     (4448773985792703, 2500000000000000), (1, 10), (-28254756953904407, 100000000000000000),
     (-1991591876499657, 12500000000000000), (-1818948683087519, 12500000000000000),
     (-1036444858193291, 4000000000000000), (-4284476998089873, 12500000000000000), (-27, 40),
     (0, 1)]]
  B := [(6666666666666667, 200000000000000000), (1, 40), (6666666666666667, 200000000000000000),
        (0, 1), (1, 20), (0, 1), (1, 25), (0, 1), (11827342384307717, 62500000000000000),
        (27742918851774317, 100000000000000000), (27742918851774317, 100000000000000000),
        (11827342384307717, 62500000000000000), (-1, 25), (-1, 20),
        (-6666666666666667, 200000000000000000), (-1, 40),
        (6666666666666667, 200000000000000000)]
  C := [(0, 1), (1, 10), (2696789204014909, 5000000000000000),
        (8090367612044727, 10000000000000000), (3090367612044727, 10000000000000000),
        (39242967608791813, 40000000000000000), (8333333333333333, 10000000000000000),
        (35401736585680237, 100000000000000000), (8825276619647323, 10000000000000000),
        (125510890281313, 195312500000000), (69801609718687, 195312500000000),
        (2349446760705353, 20000000000000000), (8333333333333333, 10000000000000000),
        (3090367612044727, 10000000000000000), (2696789204014909, 5000000000000000), (1, 10),
        (1, 1)]
  Ehat := [(6666666666666667, 200000000000000000), (1, 36), (6666666666666667, 200000000000000000),
           (0, 1), (1, 20), (0, 1), (1, 25), (0, 1), (11827342384307717, 62500000000000000),
           (27742918851774317, 100000000000000000), (27742918851774317, 100000000000000000),
           (11827342384307717, 62500000000000000), (-1, 25), (-1, 20),
           (-6666666666666667, 200000000000000000), (-1, 36),
           (6666666666666667, 200000000000000000), (0, 1)]
  subB := true

/-- `METHODS` (`integrators/butcher.py` 2282–2292) -/
def methods : List (String × Method) :=
  [("BS3(2)", bS32),
   ("DP5(4)", dP54),
   ("M4(3)", m43),
   ("KC3(2)", kC32),
   ("EXLRK3(2)", exLRK32),
   ("EXLRK4(3)", exLRK43),
   ("F14(12)", f14_12),
   ("DP8(7)", dP87),
   ("F10(8)", f10_8)]

end WxVerif.RungeKutta
