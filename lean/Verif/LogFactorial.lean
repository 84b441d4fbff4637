import Mathlib.Analysis.SpecialFunctions.Log.Basic

/-!
# The logarithm of the factorial

Models `LogFactorial.py`. Floats are real numbers: rounding is not modelled, but the constants in the code
are taken to the last digit.
-/

namespace BF.LogFactorial

/-- `LogFactorial.py` 63-97: the table `logfact`, in units of 1e-16 (all entries have 16 decimals). -/
def digits : List ℕ :=
  [0, 0, 6931471805599453, 17917594692280550, 31780538303479458, 47874917427820458,
   65792512120101012, 85251613610654147, 106046029027452509, 128018274800814709,
   151044125730755159, 175023078458738865, 199872144956618882, 225521638531234245,
   251912211827386834, 278992713838408939, 306718601060806755, 335050734501368908,
   363954452080330526, 393398841871994946, 423356164607534851, 453801388984769076,
   484711813518352201, 516066755677643698, 547847293981123187, 580036052229805179,
   612617017610020014, 645575386270063234, 678897431371815259, 712570389671680005,
   746582363488301581, 780922235533153071, 815579594561150287, 850544670175815156,
   885808275421976816, 921361756036870929, 957196945421432019, 993306124547874276,
   1029681986145138097, 1066317602606434605, 1103206397147573909, 1140342117814616927,
   1177718813997450553, 1215330815154386244, 1253172711493568841, 1291239336391272161,
   1329525750356163201, 1368027226373263829, 1406739236482342790, 1445657439463448952,
   1484777669517730487, 1524095925844973749, 1563608363030787984, 1603311282166309297,
   1643201122631951989, 1683274454484276816, 1723527971391628171, 1763958484069973736,
   1804562914175437811, 1845338288614495070, 1886281734236715977, 1927390472878448975,
   1968661816728899794, 2010093163992815164, 2051681994826411994, 2093425867525368460,
   2135322414945632659, 2177369341139542200, 2219564418191303332, 2261905483237275973,
   2304390435657769558, 2347017234428182633, 2389783895618343195, 2432688490029827051,
   2475729140961868779, 2518904022097231916, 2562211355500095351, 2605649409718632228,
   2649216497985528349, 2692910976510198680, 2736731242856937456, 2780675734403661750,
   2824742926876304523, 2868931332954270488, 2913239500942703444, 2957666013507606522,
   3002209486470141542, 3046868567656687219, 3091641935801469003, 3136528299498790489,
   3181526396202092997, 3226634991267261512, 3271852877037752023, 3317178871969284728,
   3362611819791984544, 3408150588707990210, 3453794070622668642, 3499541180407702541,
   3545390855194408459, 3591342053695754544]

noncomputable section

/-- The table as it is in the code. -/
def logfact : List ℝ := digits.map fun n : ℕ => (n : ℝ) / 10 ^ 16

/-- The formula of 102 and 118. -/
def stirling (k : ℝ) : ℝ := 0.9189385332046727 + (k + 0.5) * Real.log k - k + 1.0 / (12.0 * k)

/-- `logFactorial` 35-102 of one integer. A negative `k` counts from the end of the table, as in any python
list; `none` is the IndexError. -/
def scalar (k : ℤ) : Option ℝ :=
  if k < 100 then (if 0 ≤ k then logfact[k.toNat]? else
    if 0 ≤ k + 100 then logfact[(k + 100).toNat]? else none)
  else some (stirling k)

/-- The assignments `lf[q] = logfactarray[k[q]]` and `lf[b] = ...` of 111-118 on an array of zeros: at each
place that is in `q` or `b` the value is stored, the others stay 0. `none` is the IndexError. -/
def fill (test : ℤ → Bool) (f : ℤ → Option ℝ) : List ℤ → List ℝ → Option (List ℝ)
  | k :: ks, v :: vs =>
      match (if test k then f k else some v), fill test f ks vs with
      | some x, some xs => some (x :: xs)
      | _, _ => none
  | _, _ => some []

/-- `logFactorial` 104-120 of an array, flattened; for other lengths than 1 only, as a list of length 1 goes
to line 101 where python raises a TypeError. The shape of the result is the shape of the argument. -/
def array (k : List ℤ) : Option (List ℝ) :=
  if k.length = 1 then none
  else
    let lf := List.replicate k.length (0 : ℝ)
    let table (k : ℤ) : Option ℝ := if 0 ≤ k then logfact[k.toNat]? else
      if 0 ≤ k + 100 then logfact[(k + 100).toNat]? else none
    (fill (fun k => decide (k < 100)) table k lf).bind
      (fill (fun k => decide (100 ≤ k)) (fun k => some (stirling k)) k)

end

end BF.LogFactorial
