import Verif.Model.LoadData
import Verif.Model.Analysis

/-!
# An analysis as the scripts write it: the data are read back from the saved file, every sample gets the weight `p / prior`, and the two
weight arrays and the constants of the file go to the likelihood
-/

noncomputable section
open Classical
namespace GW
open _root_.F

/-- the number of events in the arrays of utils.py:76-96 `load_pe_and_injections_as_dict` -/
def Loaded.events (L : Loaded) : ℕ := ((L.pedict.get? "prior").getD []).length

/-- the number of samples of an event (the arrays are rectangular; the first row is taken), utils.py:82-88 -/
def Loaded.samples (L : Loaded) : ℕ := (((L.pedict.get? "prior").getD []).getD 0 []).length

/-- the number of injections in the arrays, utils.py:89 -/
def Loaded.found (L : Loaded) : ℕ := ((L.injdict.get? "prior").getD []).length

/-- `pedict[k][e, j]` as a function of the column name (`nan` for a column that is not there, where the script would raise `KeyError`) -/
def Loaded.peEntry (L : Loaded) (e j : ℕ) (k : String) : F := (((L.pedict.get? k).getD []).getD e []).getD j nan

/-- `injdict[k][i]` as a function of the column name -/
def Loaded.injEntry (L : Loaded) (i : ℕ) (k : String) : F := ((L.injdict.get? k).getD []).getD i nan

/-- `get_weights` of simple_powerlaw_peak_example.py:82-91 and simple_bspline_example.py:58-68 at one sample: a function `p` of the columns,
divided by the column `prior`.  The particular densities of the two scripts are modelled in `Verif/Model/Scripts.lean`; here `p` is any function
of the columns of the sample. -/
def weightOf (p : (String → F) → F) (d : String → F) : F := p d / d "prior"

/-- the weights handed over: their logarithms when the likelihood is called with `log=True` -/
def weightArg (log : Bool) (w : F) : F := if log then F.log w else w

/-- simple_powerlaw_peak_example.py:93-113 (without the obsolete keywords of C73) for arrays of the given sizes: `Ninj`, `Nobs` and `Tobs` are
the constants `total_inj`, `nObs` and `obs_time` of utils.py:91-93.  `total_inj` is a whole number. -/
def analyseAt (E N M : ℕ) (fl : Flags) (p : (String → F) → F) (L : Loaded) (hv : Option F) (unscaled : F) : List Site × Except PyErr (Option F) :=
  hierarchical_likelihood fl (.single fun (e : Fin E) (j : Fin N) => weightArg fl.log (weightOf p (L.peEntry e j)))
    (fun i : Fin M => weightArg fl.log (weightOf p (L.injEntry i))) ⌊L.total_inj.toReal⌋₊ L.nObs L.obs_time hv unscaled

/-- simple_powerlaw_peak_example.py:82-113: the analysis of the arrays that were read -/
def analyse (fl : Flags) (p : (String → F) → F) (L : Loaded) (hv : Option F) (unscaled : F) : List Site × Except PyErr (Option F) :=
  analyseAt L.events L.samples L.found fl p L hv unscaled

end GW
end
