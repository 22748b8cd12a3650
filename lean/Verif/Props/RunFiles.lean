import Verif.Model.Scripts
import Verif.Props.Packaging

/-!
# Loading a model from a Python file (C99) and where results are stored (C100)
-/

noncomputable section
open Classical
namespace GW

/-! ## C99 -/

/-- the file called `name.py` in the directory `dir` -/
def pyFile (dir name : List Char) : List Char := dir ++ '/' :: (name ++ ".py".toList)

theorem lastPart_append {d f : List Char} (h : '/' ∉ f) : lastPart (d ++ '/' :: f) = f := by
  unfold lastPart
  rw [List.reverse_append, List.reverse_cons, List.append_assoc, List.takeWhile_append_of_pos (by
    intro c hc; simp only [List.mem_reverse] at hc; simp; rintro rfl; exact h hc)]
  simp

/-- removing a pattern that occurs exactly at the end -/
theorem removeAll_suffix {c : Char} {t : List Char} (hc : c ∉ t) : ∀ (d : List Char) (n : ℕ), d.length < n → ¬ (c :: t) <:+: d →
    removeAll (c :: t) n (d ++ c :: t) = d := by
  intro d
  induction d with
  | nil =>
    intro n hn _
    obtain ⟨n, rfl⟩ : ∃ m, n = m + 1 := ⟨n - 1, by simp at hn; omega⟩
    simp only [List.nil_append, removeAll]
    rw [if_pos (List.prefix_refl _)]
    simp only [List.drop_length]
    cases n <;> rfl
  | cons a d ih =>
    intro n hn hno
    obtain ⟨n, rfl⟩ : ∃ m, n = m + 1 := ⟨n - 1, by omega⟩
    have hnp : ¬ (c :: t) <+: (a :: d ++ c :: t) := by
      intro hp
      by_cases hl : (c :: t).length ≤ (a :: d).length
      · exact hno ((List.prefix_of_prefix_length_le hp (List.prefix_append _ _) hl).isInfix)
      · -- the occurrence would overlap the final pattern: its character at position `|a :: d|` is `c`, but `c` is not in `t`
        have hl' : (a :: d).length < (c :: t).length := by omega
        have h1 : (c :: t)[(a :: d).length]? = (a :: d ++ c :: t)[(a :: d).length]? := by
          obtain ⟨r, hr⟩ := hp
          rw [← hr, List.getElem?_append_left hl']
        rw [List.getElem?_append_right le_rfl] at h1
        simp only [Nat.sub_self, List.getElem?_cons_zero, List.length_cons, List.getElem?_cons_succ] at h1
        exact hc (List.mem_of_getElem? h1)
    simp only [List.cons_append, removeAll]
    rw [if_neg (by simpa using hnp)]
    congr 1
    refine ih n (by simp at hn; omega) fun h => hno (h.trans ?_)
    exact (List.suffix_cons a d).isInfix

theorem pyRemove_suffix {c : Char} {t : List Char} (hc : c ∉ t) {d : List Char} (h : ¬ (c :: t) <:+: d) : pyRemove (c :: t) (d ++ c :: t) = d :=
  removeAll_suffix hc d _ (by simp) h

theorem py_toList : ".py".toList = ['.', 'p', 'y'] := by decide

/-- The two names the loader computes: the directory and the module name. -/
theorem loadModelFile_eq (files : List Char → Prop) (p : PyProc) {dir name : List Char} (hs : '/' ∉ name) (hpy : ¬ ".py".toList <:+: name)
    (hdir : ¬ ('/' :: (name ++ ".py".toList)) <:+: dir) :
    loadModelFile files p (pyFile dir name) = importModule files { p with path := p.path ++ [dir] } name := by
  have hf : '/' ∉ name ++ ".py".toList := by rw [py_toList]; simp [hs]
  unfold loadModelFile pyFile
  simp only [lastPart_append hf]
  rw [pyRemove_suffix hf hdir, py_toList, pyRemove_suffix (by decide) (by rw [← py_toList]; exact hpy)]

theorem findModule_append (files : List Char → Prop) (name : List Char) (ds : List (List Char)) (d : List Char)
    (h : ∀ e ∈ ds, ¬ files (pyFile e name)) (hd : files (pyFile d name)) : findModule files name (ds ++ [d]) = some (pyFile d name) := by
  have e : ∀ d : List Char, d ++ '/' :: name ++ ".py".toList = pyFile d name := fun d => by simp [pyFile]
  induction ds with
  | nil => simp only [List.nil_append, findModule, e]; rw [if_pos hd]
  | cons a ds ih =>
    simp only [List.cons_append, findModule, e]
    rw [if_neg (h a (by simp)), ih fun b hb => h b (by simp [hb])]

/-- **C99, partial** (missing: histories in which the name is taken, see the `_fails` theorems).  The model returned is the one of the
given file, provided no module of that name has been imported before and no directory already on the search path has a file of that name. -/
theorem C99_fresh_partial (files : List Char → Prop) (p : PyProc) {dir name : List Char} (hs : '/' ∉ name) (hpy : ¬ ".py".toList <:+: name)
    (hdir : ¬ ('/' :: (name ++ ".py".toList)) <:+: dir) (hfile : files (pyFile dir name))
    (hnew : ∀ m ∈ p.modules, m.1 ≠ name) (hpath : ∀ e ∈ p.path, ¬ files (pyFile e name)) :
    (loadModelFile files p (pyFile dir name)).2 = .ok (pyFile dir name) := by
  rw [loadModelFile_eq files p hs hpy hdir]
  unfold importModule
  have h1 : p.modules.find? (fun m => m.1 = name) = none := by
    rw [List.find?_eq_none]
    intro m hm
    simpa using hnew m hm
  simp only [h1, findModule_append files name p.path dir hpath hfile]

/-- **C99 is false after an earlier load of a file of the same name:** loading `dir₁/name.py` and then `dir₂/name.py` returns the model of
the first file both times. -/
theorem C99_second_file_fails (files : List Char → Prop) (p : PyProc) {dir1 dir2 name : List Char} (hs : '/' ∉ name)
    (hpy : ¬ ".py".toList <:+: name) (hd1 : ¬ ('/' :: (name ++ ".py".toList)) <:+: dir1) (hd2 : ¬ ('/' :: (name ++ ".py".toList)) <:+: dir2)
    {f : List Char} (h : (loadModelFile files p (pyFile dir1 name)).2 = .ok f) :
    (loadModelFile files (loadModelFile files p (pyFile dir1 name)).1 (pyFile dir2 name)).2 = .ok f := by
  rw [loadModelFile_eq files _ hs hpy hd2]
  rw [loadModelFile_eq files _ hs hpy hd1] at h ⊢
  unfold importModule at h ⊢
  simp only at h ⊢
  cases hm : p.modules.find? (fun m => m.1 = name) with
  | some m => simp only [hm] at h ⊢; exact h
  | none =>
    simp only [hm] at h ⊢
    cases hf : findModule files name (p.path ++ [dir1]) with
    | none => simp only [hf] at h; cases h
    | some g =>
      simp only [hf] at h ⊢
      have : (p.modules ++ [(name, g)]).find? (fun m => m.1 = name) = some (name, g) := by
        rw [List.find?_append, hm]; simp
      simp only [this]
      exact h

/-- **C99 is false when the search path already has a file of that name:** the earlier directory wins over the file the user named. -/
theorem C99_shadowed_fails (files : List Char → Prop) (p : PyProc) {dir name other : List Char} (hs : '/' ∉ name)
    (hpy : ¬ ".py".toList <:+: name) (hdir : ¬ ('/' :: (name ++ ".py".toList)) <:+: dir) (hnew : ∀ m ∈ p.modules, m.1 ≠ name)
    (ho : other ∈ p.path) (hfo : files (pyFile other name)) :
    ∃ e ∈ p.path, (loadModelFile files p (pyFile dir name)).2 = .ok (pyFile e name) := by
  rw [loadModelFile_eq files p hs hpy hdir]
  have h1 : p.modules.find? (fun m => m.1 = name) = none := by
    rw [List.find?_eq_none]; intro m hm; simpa using hnew m hm
  have key : ∀ ds : List (List Char), other ∈ ds → ∃ e ∈ ds, findModule files name (ds ++ [dir]) = some (pyFile e name) := by
    intro ds
    have e : ∀ d : List Char, d ++ '/' :: name ++ ".py".toList = pyFile d name := fun d => by simp [pyFile]
    induction ds with
    | nil => simp
    | cons a ds ih =>
      intro h
      by_cases ha : files (pyFile a name)
      · exact ⟨a, by simp, by simp only [List.cons_append, findModule, e]; rw [if_pos ha]⟩
      · have : other ∈ ds := by
          rcases List.mem_cons.mp h with h | h
          · exact absurd (h ▸ hfo) ha
          · exact h
        obtain ⟨b, hb, hf⟩ := ih this
        exact ⟨b, by simp [hb], by simp only [List.cons_append, findModule, e]; rw [if_neg ha, hf]⟩
  obtain ⟨b, hb, hf⟩ := key p.path ho
  refine ⟨b, hb, ?_⟩
  unfold importModule
  simp only [h1, hf]

theorem removeAll_eq_self {pat : List Char} : ∀ (n : ℕ) (s : List Char), ¬ pat <:+: s → removeAll pat n s = s := by
  intro n
  induction n with
  | zero => intro s _; rfl
  | succ n ih =>
    intro s h
    cases s with
    | nil => rfl
    | cons c s =>
      simp only [removeAll]
      rw [if_neg (fun hp => h hp.isInfix), ih s fun hi => h (hi.trans (List.suffix_cons c s).isInfix)]

/-- **C99 is false of a file given without a directory:** for the path `name.py` the search path is extended by the file's own name, not by
the current directory, so the model is found only if an earlier entry of the search path has it. -/
theorem C99_no_directory_fails (files : List Char → Prop) (p : PyProc) {name : List Char} (hs : '/' ∉ name) (hpy : ¬ ".py".toList <:+: name)
    (hnew : ∀ m ∈ p.modules, m.1 ≠ name) (hpath : ∀ e ∈ p.path, ¬ files (pyFile e name))
    (hnot : ¬ files (pyFile (name ++ ".py".toList) name)) :
    (loadModelFile files p (name ++ ".py".toList)).2 = .error (.importError (String.ofList name)) := by
  have hf : '/' ∉ name ++ ".py".toList := by rw [py_toList]; simp [hs]
  have hl : lastPart (name ++ ".py".toList) = name ++ ".py".toList := by
    unfold lastPart
    have := List.takeWhile_append_of_pos (p := fun c : Char => decide (c ≠ '/')) (l₁ := (name ++ ".py".toList).reverse) (l₂ := [])
      (by intro c hc; simp only [List.mem_reverse] at hc; simp only [decide_eq_true_eq]; rintro rfl; exact hf hc)
    simp only [List.append_nil, List.takeWhile_nil] at this
    rw [this, List.reverse_reverse]
  have hr : pyRemove ('/' :: (name ++ ".py".toList)) (name ++ ".py".toList) = name ++ ".py".toList := by
    refine removeAll_eq_self _ _ fun h => ?_
    have := h.length_le
    simp at this
  have h1 : p.modules.find? (fun m => m.1 = name) = none := by
    rw [List.find?_eq_none]; intro m hm; simpa using hnew m hm
  have h2 : findModule files name (p.path ++ [name ++ ".py".toList]) = none := by
    have e : ∀ d : List Char, d ++ '/' :: name ++ ".py".toList = pyFile d name := fun d => by simp [pyFile]
    have : ∀ ds : List (List Char), (∀ d ∈ ds, ¬ files (pyFile d name)) → findModule files name ds = none := by
      intro ds
      induction ds with
      | nil => intro _; rfl
      | cons a ds ih =>
        intro h
        simp only [findModule, e]
        rw [if_neg (h a (by simp)), ih fun d hd => h d (by simp [hd])]
    refine this _ fun d hd => ?_
    rcases List.mem_append.mp hd with h | h
    · exact hpath d h
    · simp at h; subst h; simpa using hnot
  unfold loadModelFile
  simp only [hl, hr]
  rw [py_toList, pyRemove_suffix (by decide) (by rw [← py_toList]; exact hpy)]
  unfold importModule
  rw [← py_toList]
  simp only [h1, h2]

/-- `a/m.py` and `b/m.py` meet the hypotheses: the second load returns the first file's model. -/
example : (loadModelFile (fun _ => True) (loadModelFile (fun _ => True) ⟨[], []⟩ (pyFile ['a'] ['m'])).1 (pyFile ['b'] ['m'])).2 =
    .ok (pyFile ['a'] ['m']) :=
  C99_second_file_fails _ _ (by decide) (by decide) (by decide) (by decide)
    (C99_fresh_partial _ _ (by decide) (by decide) (by decide) trivial (by simp) (by simp))

/-! ## C100 -/

/-- the characters of a decimal integer -/
theorem int_chars (n : ℤ) : ∀ c ∈ (toString n).toList, c.isDigit ∨ c = '-' := by
  intro c hc
  cases n with
  | ofNat m =>
    have : (toString (Int.ofNat m)).toList = Nat.toDigits 10 m := by
      show (Int.repr _).toList = _
      simp [Int.repr, Nat.repr]
    rw [this] at hc
    exact Or.inl (digits_isDigit m c hc)
  | negSucc m =>
    have : (toString (Int.negSucc m)).toList = '-' :: Nat.toDigits 10 (m + 1) := by
      show (Int.repr _).toList = _
      simp [Int.repr, Nat.repr, String.toList_append]
    rw [this] at hc
    rcases List.mem_cons.mp hc with h | h
    · exact Or.inr h
    · exact Or.inl (digits_isDigit _ c h)

theorem int_notMem {n : ℤ} {c : Char} (h1 : ¬ c.isDigit) (h2 : c ≠ '-') : c ∉ (toString n).toList := fun h => by
  rcases int_chars n c h with h | h
  · exact h1 h
  · exact h2 h

theorem toDigits_inj {m n : ℕ} (h : Nat.toDigits 10 m = Nat.toDigits 10 n) : m = n := by
  have := congrArg (fun l => Nat.ofDigitChars 10 l 0) h
  simpa [Nat.ofDigitChars_ten_toDigits] using this

theorem int_toString_inj {m n : ℤ} (h : (toString m).toList = (toString n).toList) : m = n := by
  have e1 : ∀ k : ℕ, (toString (Int.ofNat k)).toList = Nat.toDigits 10 k := fun k => by
    show (Int.repr _).toList = _
    simp [Int.repr, Nat.repr]
  have e2 : ∀ k : ℕ, (toString (Int.negSucc k)).toList = '-' :: Nat.toDigits 10 (k + 1) := fun k => by
    show (Int.repr _).toList = _
    simp [Int.repr, Nat.repr, String.toList_append]
  cases m with
  | ofNat m =>
    cases n with
    | ofNat n => rw [e1, e1] at h; rw [toDigits_inj h]
    | negSucc n =>
      rw [e1, e2] at h
      have := digits_isDigit m '-' (by rw [h]; simp)
      exact absurd this (by decide)
  | negSucc m =>
    cases n with
    | ofNat n =>
      rw [e1, e2] at h
      have := digits_isDigit n '-' (by rw [← h]; simp)
      exact absurd this (by decide)
    | negSucc n =>
      rw [e2, e2] at h
      have := toDigits_inj (List.cons.inj h).2
      obtain rfl : m = n := by omega
      rfl

/-- cutting at the last occurrence of `x` -/
theorem cut_last {a b d e : List Char} {x : Char} (hd : x ∉ d) (he : x ∉ e) (h : a ++ x :: d = b ++ x :: e) : a = b ∧ d = e := by
  induction a generalizing b with
  | nil =>
    cases b with
    | nil => simpa using h
    | cons y b =>
      simp only [List.nil_append, List.cons_append, List.cons.injEq] at h
      exact absurd (by rw [h.2]; simp) hd
  | cons y a ih =>
    cases b with
    | nil =>
      simp only [List.nil_append, List.cons_append, List.cons.injEq] at h
      exact absurd (by rw [← h.2]; simp) he
    | cons z b =>
      simp only [List.cons_append, List.cons.injEq] at h
      obtain ⟨h1, h2⟩ := ih h.2
      exact ⟨by rw [h.1, h1], h2⟩

/-- what the file names are made of -/
def fileTail (a : RunArgs) (e : List Char) : List Char :=
  a.run_label.toList ++ '_' :: ((toString a.warmup).toList ++ 'w' :: '_' :: ((toString a.samples).toList ++ 's' :: '_' :: 'r' :: 'n' :: 'g' ::
    ((toString a.rngkey).toList ++ e)))

theorem dir_toList (a : RunArgs) : (runDir a).toList =
    (a.result_dir.toList ++ '/' :: a.run_label.toList) ++ "/rngnum-".toList ++ (toString a.rngkey).toList ++ '/' ::
      ((toString a.warmup).toList ++ 'w' :: '_' :: ((toString a.samples).toList ++ ['s'])) := by
  simp [runDir, String.toList_append]

theorem file_toList (a : RunArgs) (e : String) : (runDir a ++ ("/" ++ runLabel a ++ e)).toList =
    (runDir a).toList ++ '/' :: fileTail a e.toList := by
  simp [fileTail, runLabel, String.toList_append]

/-- with labels that contain no slash, the file name determines the directory, the label, the seed and both sample counts -/
theorem file_inj {a b : RunArgs} {e : String} (he : '/' ∉ e.toList) (ha : '/' ∉ a.run_label.toList) (hb : '/' ∉ b.run_label.toList)
    (h : runDir a ++ ("/" ++ runLabel a ++ e) = runDir b ++ ("/" ++ runLabel b ++ e)) :
    a.result_dir = b.result_dir ∧ a.run_label = b.run_label ∧ a.rngkey = b.rngkey ∧ a.warmup = b.warmup ∧ a.samples = b.samples := by
  have h1 := congrArg String.toList h
  rw [file_toList, file_toList] at h1
  have nt : ∀ a : RunArgs, '/' ∉ a.run_label.toList → '/' ∉ fileTail a e.toList := by
    intro a ha
    simp only [fileTail, List.mem_append, List.mem_cons]
    have i1 := int_notMem (n := a.warmup) (c := '/') (by decide) (by decide)
    have i2 := int_notMem (n := a.samples) (c := '/') (by decide) (by decide)
    have i3 := int_notMem (n := a.rngkey) (c := '/') (by decide) (by decide)
    rintro (h | h | h | h | h | h | h | h | h | h | h | h | h)
    all_goals first | exact ha h | exact i1 h | exact i2 h | exact i3 h | exact he h | (revert h; decide)
  obtain ⟨h2, h3⟩ := cut_last (nt a ha) (nt b hb) h1
  rw [dir_toList, dir_toList] at h2
  have ns : ∀ a : RunArgs, '/' ∉ (toString a.warmup).toList ++ 'w' :: '_' :: ((toString a.samples).toList ++ ['s']) := by
    intro a
    simp only [List.mem_append, List.mem_cons, List.not_mem_nil, or_false]
    have i1 := int_notMem (n := a.warmup) (c := '/') (by decide) (by decide)
    have i2 := int_notMem (n := a.samples) (c := '/') (by decide) (by decide)
    rintro (h | h | h | h | h)
    all_goals first | exact i1 h | exact i2 h | (revert h; decide)
  obtain ⟨h4, h5⟩ := cut_last (ns a) (ns b) h2
  -- the sample counts
  have h6 : (toString a.warmup).toList ++ 'w' :: '_' :: ((toString a.samples).toList ++ ['s']) =
      (toString b.warmup).toList ++ 'w' :: '_' :: ((toString b.samples).toList ++ ['s']) := h5
  have nw : ∀ n : ℤ, 'w' ∉ '_' :: ((toString n).toList ++ ['s']) := by
    intro n
    have i := int_notMem (n := n) (c := 'w') (by decide) (by decide)
    simp only [List.mem_cons, List.mem_append, List.not_mem_nil, or_false]
    rintro (h | h | h)
    all_goals first | exact i h | (revert h; decide)
  obtain ⟨h7, h8⟩ := cut_last (nw _) (nw _) h6
  have h9 := List.append_cancel_right (List.cons.inj h8).2
  -- the seed
  have i3 := fun n : ℤ => int_notMem (n := n) (c := '/') (by decide) (by decide)
  have e0 : "/rngnum-".toList = '/' :: "rngnum-".toList := by decide
  have h4' : (a.result_dir.toList ++ '/' :: a.run_label.toList) ++ '/' :: ("rngnum-".toList ++ (toString a.rngkey).toList) =
      (b.result_dir.toList ++ '/' :: b.run_label.toList) ++ '/' :: ("rngnum-".toList ++ (toString b.rngkey).toList) := by
    rw [e0] at h4
    simpa only [List.append_assoc, List.cons_append] using h4
  have nr : ∀ n : ℤ, '/' ∉ "rngnum-".toList ++ (toString n).toList := by
    intro n
    rw [List.mem_append]
    rintro (h | h)
    · revert h; decide
    · exact i3 n h
  obtain ⟨h10, h11⟩ := cut_last (nr _) (nr _) h4'
  obtain ⟨h12, h13⟩ := cut_last ha hb h10
  exact ⟨String.toList_inj.mp h12, String.toList_inj.mp h13, int_toString_inj (List.append_cancel_left h11), int_toString_inj h7, int_toString_inj h9⟩

theorem posterior_ne_pdfs (a b : RunArgs) : posteriorFile a ≠ pdfsFile b := by
  intro h
  have h1 := congrArg (fun s : String => s.toList.reverse.take 5) h
  simp only [posteriorFile, pdfsFile, String.toList_append, List.reverse_append] at h1
  have e1 : ∀ l : List Char, ("_posterior_samples.h5".toList.reverse ++ l).take 5 = ['5', 'h', '.', 's', 'e'] := fun l => rfl
  have e2 : ∀ l : List Char, ("_pdfs.h5".toList.reverse ++ l).take 5 = ['5', 'h', '.', 's', 'f'] := fun l => rfl
  simp only [List.append_assoc, e1, e2] at h1
  revert h1
  decide

/-- **C100.**  A run leaves its posterior and the curves of that posterior in its two files, and running again with `--skip-inference`
recomputes the curves from exactly that posterior. -/
theorem C100_reuse {P : Type} (fs : PyDict P) (a : RunArgs) (post : P) (curves curves' : P → P) :
    ∃ fs1, runExample fs a false post curves = .ok fs1 ∧ fs1.get? (posteriorFile a) = some post ∧ fs1.get? (pdfsFile a) = some (curves post) ∧
      ∀ other, ∃ fs2, runExample fs1 a true other curves' = .ok fs2 ∧ fs2.get? (posteriorFile a) = some post ∧
        fs2.get? (pdfsFile a) = some (curves' post) := by
  have hp : ((fs.set (posteriorFile a) post).set (pdfsFile a) (curves post)).get? (posteriorFile a) = some post := by
    rw [PyDict.get?_set_ne _ _ (posterior_ne_pdfs a a), PyDict.get?_set_self]
  refine ⟨_, rfl, hp, PyDict.get?_set_self _ _ _, fun other => ⟨((fs.set (posteriorFile a) post).set (pdfsFile a) (curves post)).set (pdfsFile a) (curves' post), ?_, ?_, PyDict.get?_set_self _ _ _⟩⟩
  · unfold runExample
    simp only [if_true, hp]
    rfl
  · rw [PyDict.get?_set_ne _ _ (posterior_ne_pdfs a a), hp]

/-- **C100.**  With `--skip-inference` and no stored posterior the run raises. -/
theorem C100_nothing_stored {P : Type} (fs : PyDict P) (a : RunArgs) (post : P) (curves : P → P) (h : fs.get? (posteriorFile a) = none) :
    ∃ e, runExample fs a true post curves = .error e := by
  unfold runExample
  simp only [if_true, h]
  exact ⟨_, rfl⟩

/-- **C100, partial** (missing: the other settings, see `C100_overwrite_fails`).  A run whose result directory, label, seed, warm-up or
sample count differs leaves the earlier posterior and curves alone (labels without slashes). -/
theorem C100_distinct_partial {P : Type} (fs : PyDict P) (a b : RunArgs) (post other : P) (curves curves' : P → P)
    (ha : '/' ∉ a.run_label.toList) (hb : '/' ∉ b.run_label.toList)
    (hne : a.result_dir ≠ b.result_dir ∨ a.run_label ≠ b.run_label ∨ a.rngkey ≠ b.rngkey ∨ a.warmup ≠ b.warmup ∨ a.samples ≠ b.samples) :
    ∃ fs1 fs2, runExample fs a false post curves = .ok fs1 ∧ runExample fs1 b false other curves' = .ok fs2 ∧
      fs2.get? (posteriorFile a) = some post ∧ fs2.get? (pdfsFile a) = some (curves post) := by
  refine ⟨_, _, rfl, rfl, ?_⟩
  have h1 : posteriorFile a ≠ posteriorFile b := by
    intro h
    obtain ⟨g1, g2, g3, g4, g5⟩ := file_inj (e := "_posterior_samples.h5") (by decide) ha hb h
    rcases hne with h | h | h | h | h <;> contradiction
  have h2 : pdfsFile a ≠ pdfsFile b := by
    intro h
    obtain ⟨g1, g2, g3, g4, g5⟩ := file_inj (e := "_pdfs.h5") (by decide) ha hb h
    rcases hne with h | h | h | h | h <;> contradiction
  constructor
  · rw [PyDict.get?_set_ne _ _ (posterior_ne_pdfs a b), PyDict.get?_set_ne _ _ h1, PyDict.get?_set_ne _ _ (posterior_ne_pdfs a a),
      PyDict.get?_set_self]
  · rw [PyDict.get?_set_ne _ _ h2, PyDict.get?_set_ne _ _ (posterior_ne_pdfs b a).symm, PyDict.get?_set_self]

/-- **C100 is false for every other setting:** two runs that share directory, label, seed, warm-up and sample count write the same files,
however much they differ otherwise (data file, mass range, number of chains, thinning, spline sizes); the second posterior replaces the first,
and `--skip-inference` with the first run's settings then uses the second run's posterior. -/
theorem C100_overwrite_fails {P : Type} (fs : PyDict P) (a b : RunArgs) (post other : P) (curves curves' : P → P)
    (h1 : a.result_dir = b.result_dir) (h2 : a.run_label = b.run_label) (h3 : a.rngkey = b.rngkey) (h4 : a.warmup = b.warmup)
    (h5 : a.samples = b.samples) :
    ∃ fs1 fs2 fs3, runExample fs a false post curves = .ok fs1 ∧ runExample fs1 b false other curves' = .ok fs2 ∧
      fs2.get? (posteriorFile a) = some other ∧ runExample fs2 a true post curves = .ok fs3 ∧ fs3.get? (pdfsFile a) = some (curves other) := by
  have e1 : posteriorFile a = posteriorFile b := by simp [posteriorFile, runDir, runLabel, h1, h2, h3, h4, h5]
  have e2 : pdfsFile a = pdfsFile b := by simp [pdfsFile, runDir, runLabel, h1, h2, h3, h4, h5]
  obtain ⟨fs1, r1, -, -, -⟩ := C100_reuse fs a post curves curves
  obtain ⟨fs2, r2, p2, -, k2⟩ := C100_reuse fs1 b other curves' curves
  obtain ⟨fs3, r3, -, q3⟩ := k2 post
  refine ⟨fs1, fs2, fs3, r1, r2, e1 ▸ p2, ?_, e2 ▸ q3⟩
  rw [← r3]
  unfold runExample
  rw [e1, e2]

/-- Two runs with different mass ranges and the same label meet the hypotheses of `C100_overwrite_fails`. -/
example (fs : PyDict ℕ) : ∃ fs1 fs2 fs3, runExample fs ⟨"d.h5", "bs", "out", 3, 100, 1, 1500, 1, 1000, 1, []⟩ false 7 (· + 1) = .ok fs1 ∧
    runExample fs1 ⟨"d.h5", "bs", "out", 5, 60, 4, 1500, 1, 1000, 1, []⟩ false 9 (· + 1) = .ok fs2 ∧
    fs2.get? (posteriorFile ⟨"d.h5", "bs", "out", 3, 100, 1, 1500, 1, 1000, 1, []⟩) = some 9 ∧
    runExample fs2 ⟨"d.h5", "bs", "out", 3, 100, 1, 1500, 1, 1000, 1, []⟩ true 7 (· + 1) = .ok fs3 ∧
    fs3.get? (pdfsFile ⟨"d.h5", "bs", "out", 3, 100, 1, 1500, 1, 1000, 1, []⟩) = some 10 :=
  C100_overwrite_fails fs _ _ 7 9 (· + 1) (· + 1) rfl rfl rfl rfl rfl

end GW
