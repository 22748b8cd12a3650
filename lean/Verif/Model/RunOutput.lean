import Verif.Model.Config

/-!
# Model of what `gwinferno_run_from_config` writes after sampling (bin/gwinferno_run_from_config.py:74-92)

The file system is the directories that exist (paths ending in a slash) and the files with their contents.  The contents of a
plot are the names of the quantities in it, those of a sample file the names of the stored quantities; the numbers are not modelled.
-/

noncomputable section
open Classical
namespace GW

/-- contents of the two kinds of files -/
inductive OutFile where
  | trace (vars : List String)
  | samples (names : List String)

/-- the file system -/
structure Disk where
  dir : String → Prop
  files : PyDict OutFile

/-- the quantities a numpyro run stores: sampled and deterministic sites, not factors (library behaviour of `MCMC.get_samples`, used at
bin/gwinferno_run_from_config.py:75 through `az.from_numpyro` and at 79) -/
def recorded (sites : List Site) : List String :=
  sites.filterMap fun s => match s with
    | .sample n => some n
    | .det n _ => some n
    | .factor _ _ => none

/-- bin/gwinferno_run_from_config.py:87-90: the names handed to the trace plot -/
def summaryVars (sampling_params : List String) : List String := sampling_params ++ ["rate", "log_nEffs", "log_nEff_inj", "log_l"]

/-- the directory part of a path, up to and including the last slash -/
def dirPart (path : List Char) : List Char := (path.reverse.dropWhile fun c => c ≠ '/').reverse

/-- writing a file (bin/gwinferno_run_from_config.py:77, 80): neither `plt.savefig` nor `dd.io.save` creates a directory; a missing one raises
(`FileNotFoundError` or the library's own error, `exception` here) -/
def Disk.save (d : Disk) (path : String) (o : OutFile) : Except PyErr Disk :=
  if d.dir (String.ofList (dirPart path.toList)) then .ok { d with files := d.files.set path o } else .error .exception

/-- bin/gwinferno_run_from_config.py:77 -/
def traceFile (label : String) : String := label ++ "_trace.png"
/-- bin/gwinferno_run_from_config.py:80 -/
def samplesFile (label : String) : String := label ++ "_posterior_samples.h5"

/-- bin/gwinferno_run_from_config.py:74-80 `plot_trace_dump_samples`, `sites` being what the sampled model executes.  `az.plot_trace` raises
`KeyError` for a name the run did not store.  The file system and the outcome. -/
def plotTraceDump (d : Disk) (sites : List Site) (vars : List String) (label : String) : Disk × Except PyErr Unit :=
  match vars.find? (fun v => decide (v ∉ recorded sites)) with
  | some v => (d, .error (.keyError v))
  | none => match d.save (traceFile label) (.trace vars) with
    | .error e => (d, .error e)
    | .ok d1 => match d1.save (samplesFile label) (.samples (recorded sites)) with
      | .error e => (d1, .error e)
      | .ok d2 => (d2, .ok ())

/-- bin/gwinferno_run_from_config.py:85-92: the end of the command, for the returned parameter names, label and output directory -/
def finishRun (d : Disk) (sites : List Site) (sampling_params : List String) (lab outdir : String) : Disk × Except PyErr Unit :=
  plotTraceDump d sites (summaryVars sampling_params) (outdir ++ "/" ++ lab)

end GW
end
