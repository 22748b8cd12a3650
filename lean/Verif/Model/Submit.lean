import Verif.Model.PipelineUtils

/-!
# Model of `examples/create_simple_bspline_example_slurm_submit_script.py`

Decimal texts of floats (`f"{mmin}"`) are a parameter `showF`.  The shell is modelled on lines of plain words: a line is split at blanks
and `$SLURM_ARRAY_TASK_ID` is replaced by the number of the array task; quoting and other shell syntax are not modelled.
-/

noncomputable section
open Classical
namespace GW

/-- the parsed options of the submit script (create_simple_bspline_example_slurm_submit_script.py:7-111); options without a default are `none`
when left out -/
structure SubmitArgs where
  analysis_script : Option String
  pe_inj_file : Option String
  python_path : Option String
  result_dir : Option String
  label : String := "gwinferno_analysis"
  job_name : String := "gwinferno_analysis"
  partition : String := "gpu"
  nodes : ℤ := 1
  ntasks_per_node : ℤ := 1
  constraint : String := "gpu-80gb"
  rng_keys : String := "1"
  time : ℤ := 1440
  mem : ℤ := 8192
  num_gpus : ℤ := 1
  env : String := "gwinferno_gpu"
  mmin : ℝ := 2
  mmax : ℝ := 200
  nsamples : ℤ := 1000
  nwarmup : ℤ := 1000

/-- `f"{x}"` of an option that may be `None` -/
def showOpt : Option String → String
  | some s => s
  | none => "None"

/-- create_simple_bspline_example_slurm_submit_script.py:135-136: the time limit written to the script -/
def submitTime (a : SubmitArgs) : ℤ :=
  if 1440 < a.time ∧ ¬ "long".toList <:+: a.partition.toList then 1440 else a.time

/-- create_simple_bspline_example_slurm_submit_script.py:137-149: the resource lines (the trailing `###` comments left out), as (option, value) pairs -/
def submitHeader (a : SubmitArgs) : List (String × String) := [
  ("--partition", a.partition),
  ("--job-name", a.job_name),
  ("--output", showOpt a.result_dir ++ "/" ++ a.label ++ "/rng_%a.out"),
  ("--error", showOpt a.result_dir ++ "/" ++ a.label ++ "/rng_%a.err"),
  ("--time", toString (submitTime a)),
  ("--mem", toString a.mem ++ "M"),
  ("--nodes", toString a.nodes),
  ("--ntasks-per-node", toString a.ntasks_per_node),
  ("-a", a.rng_keys),
  ("--gres", "gpu:" ++ toString a.num_gpus),
  ("--constraint", "\"" ++ a.constraint ++ "\"")]

/-- create_simple_bspline_example_slurm_submit_script.py:151: the line that starts the analysis -/
def submitLine (showF : ℝ → String) (a : SubmitArgs) : String :=
  showOpt a.python_path ++ " " ++ showOpt a.analysis_script ++ " --samples " ++ toString a.nsamples ++ " --warmup " ++ toString a.nwarmup ++
    " --rngkey $SLURM_ARRAY_TASK_ID --run-label " ++ a.label ++ " --result-dir " ++ showOpt a.result_dir ++ " --mmin " ++ showF a.mmin ++
    " --mmax " ++ showF a.mmax ++ " --pe-inj-file " ++ showOpt a.pe_inj_file

/-- create_simple_bspline_example_slurm_submit_script.py:154: the name of the script written -/
def submitFile (a : SubmitArgs) : String := "submit_" ++ a.job_name ++ "_rng" ++ a.rng_keys ++ ".sh"

/-- create_simple_bspline_example_slurm_submit_script.py:137-152: the lines of the script (the trailing `###` comments and the empty line left out): long options are
joined to their value by `=`, the short one `-a` by a blank -/
def submitText (showF : ℝ → String) (a : SubmitArgs) : List String :=
  "#!/bin/bash" :: (submitHeader a).map (fun o => "#SBATCH " ++ o.1 ++ (if o.1 = "-a" then " " else "=") ++ o.2) ++
    ["conda activate " ++ a.env, submitLine showF a, "conda deactivate"]

/-- create_simple_bspline_example_slurm_submit_script.py:154-155: the script is written to the working directory, over an older one of that name -/
def writeSubmit (showF : ℝ → String) (dir : PyDict (List String)) (a : SubmitArgs) : PyDict (List String) :=
  dir.set (submitFile a) (submitText showF a)

/-- the words of a line; `cur` is the word being read, reversed -/
def wordsFrom (cur : List Char) : List Char → List (List Char)
  | [] => if cur = [] then [] else [cur.reverse]
  | c :: s => if c = ' ' then (if cur = [] then wordsFrom [] s else cur.reverse :: wordsFrom [] s) else wordsFrom (c :: cur) s

/-- The shell on array task `task`: the words of the line with the task number filled in. -/
def shellWords (task : ℤ) (s : String) : List String :=
  (wordsFrom [] s.toList).map fun w => if w = "$SLURM_ARRAY_TASK_ID".toList then toString task else String.ofList w

/-- How `argparse` reads a list of words whose options all take one value: option and value alternate; a word that is not an option is refused
(there are no positional arguments), and so is an option without a value.  Values with a single leading dash are let through, which
`argparse` does only for negative numbers. -/
def pairUp : List String → Option (List (String × String))
  | [] => some []
  | [_] => none
  | o :: v :: rest =>
    if "--".toList <+: o.toList ∧ ¬ "--".toList <+: v.toList then (pairUp rest).map ((o, v) :: ·) else none

/-- What the analysis started by array task `task` finds in option `o`: the shell's words without interpreter and script, parsed.
`none`: the program ends with a usage message. -/
def taskOption (showF : ℝ → String) (parseInt : String → Option ℤ) (parseFlt : String → Option ℝ) (a : SubmitArgs) (task : ℤ) (o : Opt) : Option ArgVal :=
  match pairUp ((shellWords task (submitLine showF a)).drop 2) with
  | none => none
  | some argv => argOf parseInt parseFlt argv o

end GW
end
