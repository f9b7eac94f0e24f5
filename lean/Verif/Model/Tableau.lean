import Mathlib.Algebra.Field.Defs

/-!
Butcher tableaux: /repo/torchdyn/numerics/solvers/_constants.py.
-/

namespace Torchdyn

/-- The 4-tuple `(c, a, bsol, berr)` of /repo/torchdyn/numerics/solvers/_constants.py:17.
`dtype` is dropped: entries are exact elements of `K`. -/
structure Tableau (K : Type) where
  c : List K
  a : List (List K)
  bsol : List K
  berr : List K

/-- Indexing of a tableau row. All accesses made by the solver steps are in range for the
tableaux constructed below; user-tweaked short tableaux (Python `IndexError`) are not modelled:
a missing entry reads as `0`. -/
def nth {K : Type} [Zero K] (l : List K) (i : Nat) : K := l.getD i 0

/-- `a[i][j]`. -/
def nth2 {K : Type} [Zero K] (a : List (List K)) (i j : Nat) : K := nth (a.getD i []) j

variable (K : Type) [Field K]

/-- /repo/torchdyn/numerics/solvers/_constants.py:20-28 `construct_rk4`. -/
def constructRk4 : Tableau K where
  c := [0, 1 / 2, 1 / 2, 1]
  a := [[1 / 2],
        [0, 1 / 2],
        [0, 0, 1]]
  bsol := [1 / 6, 1 / 3, 1 / 3, 1 / 6]
  berr := [0]

/-- The literal `bsol` of `construct_dopri5` (_constants.py:41). -/
def dopri5Bsol : List K :=
  [35 / 384, 0, 500 / 1113, 125 / 192, -2187 / 6784, 11 / 84, 0]

/-- The literal `berr` of `construct_dopri5` (_constants.py:42), before the subtraction. -/
def dopri5Bhat : List K :=
  [1951 / 21600, 0, 22642 / 50085, 451 / 720, -12231 / 42400, 649 / 6300, 1 / 60]

/-- /repo/torchdyn/numerics/solvers/_constants.py:31-46 `construct_dopri5` (the unused `dmid`
is dropped). The returned error weights are `bsol - berr`. -/
def constructDopri5 : Tableau K where
  c := [1 / 5, 3 / 10, 4 / 5, 8 / 9, 1, 1]
  a := [[1 / 5],
        [3 / 40, 9 / 40],
        [44 / 45, -56 / 15, 32 / 9],
        [19372 / 6561, -25360 / 2187, 64448 / 6561, -212 / 729],
        [9017 / 3168, -355 / 33, 46732 / 5247, 49 / 176, -5103 / 18656],
        [35 / 384, 0, 500 / 1113, 125 / 192, -2187 / 6784, 11 / 84]]
  bsol := dopri5Bsol K
  berr := List.zipWith (· - ·) (dopri5Bsol K) (dopri5Bhat K)

/-- The literal `bsol` of `construct_tsit5` (_constants.py:94-102). -/
def tsit5Bsol : List K :=
  [9646076681806522951816731316512876333711995238157997181903319145764851595234062815396 / 10 ^ 86,
   1 / 100,
   4798896504144995747752495322905965199130404621990332488332634944254542060153074523509 / 10 ^ 85,
   1379008574103741893192274821856872770756462643091360525934940067397245698027561293331 / 10 ^ 84,
   -3290069515436080679901047585711363850115683290894936158531296799594813811049925401677 / 10 ^ 84,
   2324710524099773982415355918398765796109060233222962411944060046314465391054716027841 / 10 ^ 84,
   0]

/-- The literal `berr` of `construct_tsit5` (_constants.py:103-111), before the subtraction. -/
def tsit5Bhat : List K :=
  [9468075576583945807478876255758922856117527357724631226139574065785592789071067303271 / 10 ^ 86,
   9183565540343253096776363936645313759813746240984095238905939532922955247253608687270 / 10 ^ 87,
   4877705284247615707855642599631228241516691959761363774365216240304071651579571959813 / 10 ^ 85,
   1234297566930478985655109673884237654035539930748192848315425833500484878378061439761 / 10 ^ 84,
   -2707712349983525454881109975059321670689605166938197378763992255714444407154902012702 / 10 ^ 84,
   1866628418170587035753719399566211498666255505244122593996591602841258328965767580089 / 10 ^ 84,
   1 / 66]

/-- /repo/torchdyn/numerics/solvers/_constants.py:49-112 `construct_tsit5`. The decimals are
transcribed digit by digit. The returned error weights are `bsol - berr`. -/
def constructTsit5 : Tableau K where
  c := [161 / 1000,
        327 / 1000,
        9 / 10,
        9800255409045096857298102862870245954942137979563024768854764293221195950761080302604 / 10 ^ 85,
        1,
        1]
  a := [[161 / 1000],
        [-8480655492356988544426874250230774675121177393430391537369234245294192976164141156943 / 10 ^ 87,
         3354806554923569885444268742502307746751211773934303915373692342452941929761641411569 / 10 ^ 85],
        [2897153057105493432130432594192938764924887287701866490314866693455023795137503079289 / 10 ^ 84,
         -6359448489975074843148159912383825625952700647415626703305928850207288721235210244366 / 10 ^ 84,
         4362295432869581411017727318190886861027813359713760212991062156752264926097707165077 / 10 ^ 84],
        [5325864828439256604428877920840511317836476253097040101202360397727981648835607691791 / 10 ^ 84,
         -1174888356406282787774717033978577296188744178259862899288666928009020615663593781589 / 10 ^ 83,
         7495539342889836208304604784564358155658679161518186721010132816213648793440552049753 / 10 ^ 84,
         -9249506636175524925650207933207191611349983406029535244034750452930469056411389539635 / 10 ^ 86],
        [5861455442946420028659251486982647890394337666164814434818157239052507339770711679748 / 10 ^ 84,
         -1292096931784710929170611868178335939541780751955743459166312250439928519268343184452 / 10 ^ 83,
         8159367898576158643180400794539253485181918321135053305748355423955009222648673734986 / 10 ^ 84,
         -7158497328140099722453054252582973869127213147363544882721139659546372402303777878835 / 10 ^ 86,
         -2826905039406838290900305721271224146717633626879770007617876201276764571291579142206 / 10 ^ 86],
        [9646076681806522951816731316512876333711995238157997181903319145764851595234062815396 / 10 ^ 86,
         1 / 100,
         4798896504144995747752495322905965199130404621990332488332634944254542060153074523509 / 10 ^ 85,
         1379008574103741893192274821856872770756462643091360525934940067397245698027561293331 / 10 ^ 84,
         -3290069515436080679901047585711363850115683290894936158531296799594813811049925401677 / 10 ^ 84,
         2324710524099773982415355918398765796109060233222962411944060046314465391054716027841 / 10 ^ 84]]
  bsol := tsit5Bsol K
  berr := List.zipWith (· - ·) (tsit5Bsol K) (tsit5Bhat K)

/-- /repo/torchdyn/numerics/solvers/_constants.py:121-127 `construct_4th`: weights of the
mid-point approximation used by the 4th order interpolator. -/
def construct4th : List K :=
  [10013431883002395 / 10 ^ 17,
   0,
   3918321794184259 / 10 ^ 16,
   -2982460176594817 / 10 ^ 17,
   5893268337240795 / 10 ^ 17,
   -4497888809104361 / 10 ^ 17,
   23904308236133973 / 10 ^ 18]

end Torchdyn
