import Verif.Fitters

/-!
# A fit within limits

Models `BaseFitter.limitsFit`, `BaseFitter.py` 366-441, for any `fit` method.

* `fit` is a parameter: from the state of the fitter and the argument `keep` it makes a new state, of which `params` are
  `model.parameters`; `none` is an exception. It returns all parameters, as `Fitter.fit` 153-159 does. The array returned
  and `model.parameters` are one and the same object (`Model.py` 226, `Tools.py` 132), so that line 421 changes both.
* Limits that are infinite are `none`. `self.model.priors` of line 396 is `none` when the first model of the chain has no
  priors; otherwise the limits of parameter `k` are those of `getPrior( k )`.
* Keys of dictionaries are numbers of parameters. The print in line 430 is left out.
-/

noncomputable section

namespace BF.LimitsFit

open BF.Fitters

/-- `fix[k] = v` for a dictionary. -/
def setKey : List (ℤ × ℝ) → ℤ → ℝ → List (ℤ × ℝ)
  | [], k, v => [(k, v)]
  | (j, u) :: l, k, v => if j = k then (j, v) :: l else (j, u) :: setKey l k v

/-- The keys of the call are added, 408-410. -/
def withKeep (fix : List (ℤ × ℝ)) : Option (List (ℤ × ℝ)) → List (ℤ × ℝ)
  | none => fix
  | some kv => kv.foldl (fun f x => setKey f x.1 x.2) fix

/-- The tests in 420 and 424: the limit that is transgressed, if any. -/
def transgressed (lim : Option ℝ × Option ℝ) (v : ℝ) : Option ℝ :=
  match lim.1 with
  | some lo => if v < lo then some lo else
      match lim.2 with
      | some hi => if v > hi then some hi else none
      | none => none
  | none =>
      match lim.2 with
      | some hi => if v > hi then some hi else none
      | none => none

/-- What the loop changes: the parameters, the dictionary `fix` and the counter `ool`. -/
structure Loop where
  params : ℕ → ℝ
  fix : List (ℤ × ℝ)
  ool : ℕ

/-- One turn of the loop, 419-427. -/
def turn (np : ℕ) (lims : ℕ → Option ℝ × Option ℝ) (l : Loop) (k : ℤ) : Loop :=
  match transgressed (lims (pyIdx np k)) (l.params (pyIdx np k)) with
  | some v => ⟨fun j => if j = pyIdx np k then v else l.params j, setKey l.fix k v, l.ool + 1⟩
  | none => l

/-- `BaseFitter.limitsFit` 366-441: what it returns, and the fitter afterwards. `sfix` is `self.keep`. -/
def limitsFit (np : ℕ) (fit : Fitter → Option (List (ℤ × ℝ)) → Option Fitter)
    (priors : Option (ℕ → Option ℝ × Option ℝ)) (sfix : Option (List (ℤ × ℝ))) (s : Fitter)
    (keep : Option (List (ℤ × ℝ))) : Option (List ℝ × Fitter) :=
  match fit s keep with
  | none => none
  | some s1 =>
    let pars := (List.range np).map s1.params
    match priors with
    | none => some (pars, s1)
    | some lims =>
      let index := match s1.fitIndex with
        | none => (List.range np).map fun k : ℕ => (k : ℤ)
        | some fi => fi
      let fix := match s1.fitIndex with
        | none => []
        | some _ => sfix.getD []
      let fix := withKeep fix keep
      let l := index.foldl (turn np lims) ⟨s1.params, fix, 0⟩
      let s2 := { s1 with params := l.params }
      if l.ool > 0 then
        let s3 := (keepFixed np s2 (some l.fix)).2
        match fit s3 (some l.fix) with
        | none => none
        | some s4 =>
          let pars := (List.range np).map s4.params
          let s5 := (keepFixed np s4 sfix).2
          match sfix with
          | none => some (pars, s5)
          | some _ => some ((s5.fitIndex.getD []).map fun k => s5.params (pyIdx np k), s5)
      else some (pars, s2)

end BF.LimitsFit
