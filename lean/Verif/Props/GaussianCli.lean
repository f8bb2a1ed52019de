import Verif.Model.GaussianCli
import Mathlib.Data.List.Induction

/-! # C134: the command lines of the programs that take files with integrals (scripts/gaussian) -/

namespace Fanpy.Props
open Fanpy.Slater Fanpy.GaussianCli

/-! ## Statement -/

/-- an option, the argument of `make_script` that it sets, what it takes, and the value of the argument without it -/
structure C134_Row where
  option : String
  argument : String
  kind : Kind
  default : Val
deriving DecidableEq

/-- the options of all programs -/
def C134_rows : List C134_Row :=
  [⟨"--nelec", "nelec", .int, .none⟩, ⟨"--one_int_file", "one_int_file", .text, .none⟩, ⟨"--two_int_file", "two_int_file", .text, .none⟩,
   ⟨"--wfn_type", "wfn_type", .text, .none⟩, ⟨"--nuc_repulsion", "nuc_nuc", .float, .num "0.0"⟩,
   ⟨"--optimize_orbs", "optimize_orbs", .flag, .bool false⟩, ⟨"--pspace", "pspace_exc", .ints, .nums ["1", "2"]⟩,
   ⟨"--objective", "objective", .text, .str "projected"⟩, ⟨"--solver", "solver", .text, .str "least_squares"⟩,
   ⟨"--ham_noise", "ham_noise", .float, .num "0.0"⟩, ⟨"--wfn_noise", "wfn_noise", .float, .num "0.0"⟩,
   ⟨"--solver_kwargs", "solver_kwargs", .text, .none⟩, ⟨"--wfn_kwargs", "wfn_kwargs", .text, .none⟩, ⟨"--load_orbs", "load_orbs", .text, .none⟩,
   ⟨"--load_ham", "load_ham", .text, .none⟩, ⟨"--load_ham_um", "load_ham_um", .text, .none⟩, ⟨"--load_wfn", "load_wfn", .text, .none⟩,
   ⟨"--save_chk", "save_chk", .text, .str ""⟩, ⟨"--memory", "memory", .text, .none⟩]

/-- the options that only some programs use -/
def C134_chk : C134_Row := ⟨"--load_chk", "load_chk", .text, .str ""⟩
def C134_file : C134_Row := ⟨"--filename", "filename", .text, .none⟩
def C134_nproj : C134_Row := ⟨"--nproj", "nproj", .float, .num "0"⟩

/-- a word that is not read as an option -/
def C134_plain (v : String) : Prop := v.toList.head? ≠ some '-'

/-- the words that can follow an option -/
def C134_Good (w : Numbers) : Kind → List String → Prop
  | .flag, l => l = []
  | .text, l => ∃ v, l = [v] ∧ C134_plain v
  | .int, l => ∃ v, l = [v] ∧ C134_plain v ∧ w.isInt v = true
  | .float, l => ∃ v, l = [v] ∧ C134_plain v ∧ w.isFloat v = true
  | .ints, l => l ≠ [] ∧ ∀ v ∈ l, C134_plain v ∧ w.isInt v = true

/-- what they stand for -/
def C134_value : Kind → List String → Val
  | .flag, _ => .bool true
  | .text, l => .str (l.headD "")
  | .int, l => .num (l.headD "")
  | .float, l => .num (l.headD "")
  | .ints, l => .nums l

/-- options with the words that follow them, written one after the other -/
def C134_words (ss : List (String × List String)) : List String := ss.flatMap fun s => s.1 :: s.2

/-- the value of an argument: that of the last option that sets it -/
def C134_given (ss : List (String × List String)) (r : C134_Row) : Val :=
  (((ss.filter fun s => s.1 = r.option).getLast?).map fun s => C134_value r.kind s.2).getD r.default

/-- all options are options of the list of rows, followed by what they take -/
def C134_Line (w : Numbers) (rows : List C134_Row) (ss : List (String × List String)) : Prop :=
  ∀ s ∈ ss, ∃ r ∈ rows, r.option = s.1 ∧ C134_Good w r.kind s.2

/-! ## Helpers -/

section
variable {w : Numbers}

theorem cli_dashed {v : String} : Script.dashed v = true ↔ ¬ C134_plain v := by
  simp [Script.dashed, C134_plain]

theorem cli_takes {k : Kind} {l rest : List String} (h : C134_Good w k l) (hr : ∀ x ∈ rest.head?, Script.dashed x = true) :
    takes k (l ++ rest) = (l, rest) := by
  have hnd : ∀ {v}, C134_plain v → Script.dashed v = false := fun {v} hv => by
    rw [Bool.eq_false_iff]; intro hd; exact cli_dashed.1 hd hv
  cases k with
  | flag => rw [show l = [] from h]; rfl
  | text => obtain ⟨v, rfl, hv⟩ := h; simp [takes, hnd hv]
  | int => obtain ⟨v, rfl, hv, -⟩ := h; simp [takes, hnd hv]
  | float => obtain ⟨v, rfl, hv, -⟩ := h; simp [takes, hnd hv]
  | ints =>
    obtain ⟨-, h⟩ := h
    have h1 : ∀ v ∈ l, (!Script.dashed v) = true := fun v hv => by simp [hnd (h v hv).1]
    simp only [takes]
    rw [List.takeWhile_append_of_pos h1, List.dropWhile_append_of_pos h1]
    cases rest with
    | nil => simp
    | cons x xs =>
      have := hr x (by simp)
      simp [this]

theorem cli_convert {k : Kind} {l : List String} (h : C134_Good w k l) : convert w k l = some (C134_value k l) := by
  cases k with
  | flag => rw [show l = [] from h]; rfl
  | text => obtain ⟨v, rfl, hv⟩ := h; rfl
  | int => obtain ⟨v, rfl, hv, hi⟩ := h; simp [convert, hi, C134_value]
  | float => obtain ⟨v, rfl, hv, hi⟩ := h; simp [convert, hi, C134_value]
  | ints =>
    obtain ⟨h0, h⟩ := h
    cases l with
    | nil => exact absurd rfl h0
    | cons v vs =>
      have : (v :: vs).all w.isInt = true := by
        rw [List.all_eq_true]; exact fun x hx => (h x hx).2
      simp only [convert, C134_value]
      rw [if_pos this]

/-- the option of a name -/
def cliOpt (opts : List Opt) (o : String) : Opt := (opts.find? fun p => p.name = o).getD ⟨"", "", .flag, .none⟩

theorem cli_parse (opts : List Opt) (hd : ∀ p ∈ opts, Script.dashed p.name = true) (ss : List (String × List String))
    (h : ∀ s ∈ ss, ∃ p, (opts.find? fun p => p.name = s.1) = some p ∧ C134_Good w p.kind s.2) (tail : List String)
    (ht : ∀ x ∈ tail.head?, Script.dashed x = true) : ∀ ns, parse w opts (C134_words ss ++ tail) ns
      = parse w opts tail ((ss.map fun s => ((cliOpt opts s.1).dest, C134_value (cliOpt opts s.1).kind s.2)).reverse ++ ns) := by
  induction ss with
  | nil => intro ns; rfl
  | cons s ss ih =>
    intro ns
    obtain ⟨p, hp, hg⟩ := h s (by simp)
    have e : C134_words (s :: ss) ++ tail = s.1 :: (s.2 ++ (C134_words ss ++ tail)) := by simp [C134_words]
    have hr : ∀ x ∈ (C134_words ss ++ tail).head?, Script.dashed x = true := by
      cases ss with
      | nil => exact ht
      | cons t ts =>
        intro x hx
        obtain ⟨q, hq, -⟩ := h t (by simp)
        have : x = t.1 := by simpa [C134_words, eq_comm] using hx
        rw [this]
        have h2 := List.find?_some hq
        have h3 := hd q (List.mem_of_find?_eq_some hq)
        rw [← of_decide_eq_true h2]; exact h3
    have ho : cliOpt opts s.1 = p := by simp [cliOpt, hp]
    rw [e, parse, hp]
    simp only [cli_takes hg hr, cli_convert hg]
    rw [ih (fun t ht => h t (by simp [ht]))]
    simp [ho]

theorem cli_lookup (f : String → String) (v : String → List String → Val) (o : String) (ss : List (String × List String))
    (h : ∀ s ∈ ss, f s.1 = f o → s.1 = o) : (ss.map fun s => (f s.1, v s.1 s.2)).reverse.lookup (f o)
      = ((ss.filter fun s => s.1 = o).getLast?).map fun s => v o s.2 := by
  induction ss using List.reverseRecOn with
  | nil => rfl
  | append_singleton ss s ih =>
    have h0 := ih fun t ht => h t (by simp [ht])
    rw [List.map_append, List.reverse_append, List.filter_append]
    by_cases hs : s.1 = o
    · subst hs
      simp
    · have : ¬ f o = f s.1 := fun e => hs (h s (by simp) e.symm)
      simp only [List.map_cons, List.map_nil, List.reverse_singleton, List.singleton_append, List.lookup_cons, hs,
        decide_false, List.filter_cons, List.filter_nil]
      rw [show (f o == f s.1) = false by simpa using this]
      simpa using h0

/-- options and rows say the same -/
structure CliMatch (opts : List Opt) (rows : List C134_Row) : Prop where
  find : ∀ r ∈ rows, (opts.find? fun p => p.name = r.option) = some ⟨r.option, r.argument, r.kind, r.default⟩
  dest : ∀ p ∈ opts, ∀ q ∈ opts, p.dest = q.dest → p.name = q.name
  dash : ∀ p ∈ opts, Script.dashed p.name = true
  default : ∀ r ∈ rows, (opts.map fun p => (p.dest, p.default)).lookup r.argument = some r.default
  type : ⟨"--wfn_type", "wfn_type", .text, .none⟩ ∈ rows

theorem cli_match_main : CliMatch (options ++ [filenameOption]) (C134_rows ++ [C134_chk, C134_file, C134_nproj]) where
  find := by decide +kernel
  dest := by decide +kernel
  dash := by decide +kernel
  default := by decide +kernel
  type := by simp [C134_rows]

theorem cli_match_run : CliMatch options (C134_rows ++ [C134_chk, C134_nproj]) where
  find := by decide +kernel
  dest := by decide +kernel
  dash := by decide +kernel
  default := by decide +kernel
  type := by simp [C134_rows]

theorem cli_ns {opts : List Opt} {rows : List C134_Row} (M : CliMatch opts rows) {ss : List (String × List String)}
    (hl : C134_Line w rows ss) : ∃ ns, parse w opts (C134_words ss) (opts.map fun p => (p.dest, p.default)) = .ok ns ∧
      ∀ r ∈ rows, ns.lookup r.argument = some (C134_given ss r) := by
  have hp := cli_parse (w := w) opts M.dash ss (fun s hs => by
    obtain ⟨r, hr, h1, h2⟩ := hl s hs
    exact ⟨_, h1 ▸ M.find r hr, h2⟩) [] (by simp) (opts.map fun p => (p.dest, p.default))
  rw [List.append_nil] at hp
  refine ⟨_, by rw [hp, parse], fun r hr => ?_⟩
  have ho : cliOpt opts r.option = ⟨r.option, r.argument, r.kind, r.default⟩ := by simp [cliOpt, M.find r hr]
  have hlk := cli_lookup (fun o => (cliOpt opts o).dest) (fun o l => C134_value (cliOpt opts o).kind l) r.option ss (by
    intro s hs e
    obtain ⟨q, hq, h1, h2⟩ := hl s hs
    have e1 := M.find q hq
    have e2 := M.find r hr
    have e3 : cliOpt opts s.1 = ⟨q.option, q.argument, q.kind, q.default⟩ := by rw [← h1]; simp [cliOpt, e1]
    rw [ho, e3] at e
    have := M.dest _ (List.mem_of_find?_eq_some e1) _ (List.mem_of_find?_eq_some e2) e
    rw [← h1]; exact this)
  simp only [ho] at hlk
  rw [List.lookup_append, hlk, M.default r hr, C134_given]
  cases ((ss.filter fun s => s.1 = r.option).getLast?) <;> rfl

theorem cli_args {opts : List Opt} {rows : List C134_Row} (M : CliMatch opts rows) {ss : List (String × List String)}
    (hl : C134_Line w rows ss) (ht : ∃ s ∈ ss, s.1 = "--wfn_type") : ∃ ns, parseArgs w opts (C134_words ss) = .ok ns ∧
      ∀ r ∈ rows, ns.lookup r.argument = some (C134_given ss r) := by
  obtain ⟨ns, h1, h2⟩ := cli_ns M hl
  refine ⟨ns, ?_, h2⟩
  have h3 := h2 _ M.type
  have h4 : C134_given ss ⟨"--wfn_type", "wfn_type", .text, .none⟩ ≠ .none := by
    obtain ⟨s, hs, e⟩ := ht
    have hm : s ∈ ss.filter fun s => s.1 = "--wfn_type" := by simp [hs, e]
    simp only [C134_given]
    cases hg : (ss.filter fun s => s.1 = "--wfn_type").getLast? with
    | none => rw [List.getLast?_eq_none_iff] at hg; rw [hg] at hm; cases hm
    | some t => simp [C134_value]
  simp only [parseArgs, h1, bind, Except.bind]
  rw [if_neg]
  rw [h3]
  intro e
  exact h4 (Option.some.inj e)

/-- the arguments that all calls have -/
def cliNames : List String :=
  ["nelec", "one_int_file", "two_int_file", "wfn_type", "nuc_nuc", "optimize_orbs", "pspace_exc", "objective", "solver", "ham_noise", "wfn_noise",
   "solver_kwargs", "wfn_kwargs", "load_orbs", "load_ham", "load_ham_um", "load_wfn", "save_chk", "memory"]

theorem cli_positional {ns : List (String × Val)} {V : String → Val} (h : ∀ n ∈ cliNames, ns.lookup n = some (V n)) :
    positional.mapM (attr ns) = .ok [V "nelec", V "one_int_file", V "two_int_file", V "wfn_type"] := by
  simp only [cliNames, List.forall_mem_cons] at h
  obtain ⟨h1, h2, h3, h4, -⟩ := h
  simp only [positional, attr, List.mapM_cons, List.mapM_nil, h1, h2, h3, h4]
  rfl

theorem cli_shared {ns : List (String × Val)} {V : String → Val} (h : ∀ n ∈ cliNames, ns.lookup n = some (V n)) :
    keywords ns sharedKeywords = .ok (sharedKeywords.map fun a => (a.1, V a.1)) := by
  simp only [cliNames, List.forall_mem_cons] at h
  obtain ⟨-, -, -, -, h5, h6, h7, h8, h9, h10, h11, h12, h13, h14, h15, h16, h17, h18, h19, -⟩ := h
  simp only [sharedKeywords, keywords, attr, List.mapM_cons, List.mapM_nil, h5, h6, h7, h8, h9, h10, h11, h12, h13, h14, h15, h16, h17, h18, h19]
  rfl

theorem cli_main {ns : List (String × Val)} {V : String → Val} (h : ∀ n ∈ cliNames ++ ["load_chk", "filename"], ns.lookup n = some (V n)) :
    keywords ns mainKeywords = .ok (mainKeywords.map fun a => (a.1, V a.1)) := by
  simp only [cliNames, List.cons_append, List.nil_append, List.forall_mem_cons] at h
  obtain ⟨-, -, -, -, h5, h6, h7, h8, h9, h10, h11, h12, h13, h14, h15, h16, h17, h18, h19, h20, h21, -⟩ := h
  simp only [mainKeywords, sharedKeywords, keywords, attr, List.mapM_cons, List.mapM_nil, List.cons_append, List.nil_append, h5, h6, h7, h8, h9,
    h10, h11, h12, h13, h14, h15, h16, h17, h18, h19, h20, h21]
  rfl

theorem cli_call_script {ns : List (String × Val)} {V : String → Val}
    (h : ∀ n ∈ cliNames ++ ["load_chk", "filename"], ns.lookup n = some (V n)) :
    callWith makeScriptParams mainKeywords [] ns = .ok (makeScriptParams.map fun p => (p.1, if p.1 = "constraint" then .none else V p.1)) := by
  simp only [callWith, cli_positional fun n hn => h n (List.mem_append_left _ hn), cli_main h, bind, Except.bind, List.append_nil]
  simp [bindCall, makeScriptParams, mainKeywords, sharedKeywords, bindOne, List.mapM_cons, List.lookup_cons]
  rfl

theorem cli_call_fanci {ns : List (String × Val)} {V : String → Val}
    (h : ∀ n ∈ cliNames ++ ["load_chk", "filename"], ns.lookup n = some (V n)) :
    callWith makeFanciScriptParams mainKeywords [] ns = .ok (makeFanciScriptParams.map fun p =>
      (p.1, if p.1 = "constraint" ∨ p.1 = "fanpt_kwargs" then .none else V p.1)) := by
  simp only [callWith, cli_positional fun n hn => h n (List.mem_append_left _ hn), cli_main h, bind, Except.bind, List.append_nil]
  simp [bindCall, makeFanciScriptParams, makeScriptParams, mainKeywords, sharedKeywords, bindOne, List.mapM_cons, List.lookup_cons]
  rfl

theorem cli_call_run {ns : List (String × Val)} {V : String → Val} (h : ∀ n ∈ cliNames, ns.lookup n = some (V n)) :
    callWith runCalcParams sharedKeywords [] ns = .ok (runCalcParams.map fun p => (p.1, V p.1)) := by
  simp only [callWith, cli_positional h, cli_shared h, bind, Except.bind, List.append_nil]
  simp [bindCall, runCalcParams, sharedKeywords, bindOne, List.mapM_cons, List.lookup_cons]
  rfl

theorem cli_call_exec {ns : List (String × Val)} {V : String → Val} (h : ∀ n ∈ cliNames, ns.lookup n = some (V n)) :
    callWith makeScriptParams sharedKeywords [("filename", .num "-1")] ns = .ok (makeScriptParams.map fun p =>
      (p.1, if p.1 = "constraint" ∨ p.1 = "load_chk" then .none else if p.1 = "filename" then .num "-1" else V p.1)) := by
  simp only [callWith, cli_positional h, cli_shared h, bind, Except.bind]
  simp [bindCall, makeScriptParams, sharedKeywords, bindOne, List.mapM_cons, List.lookup_cons]
  rfl

theorem cli_lookup_map {α : Type} (l : List (String × α)) (F : String → Val) (n : String) (hn : n ∈ l.map Prod.fst) :
    (l.map fun p => (p.1, F p.1)).lookup n = some (F n) := by
  induction l with
  | nil => cases hn
  | cons p l ih =>
    rw [List.map_cons, List.lookup_cons]
    by_cases h : n = p.1
    · rw [← h]; simp
    · rw [show (n == p.1) = false by simpa using h]
      exact ih (by simpa [h] using hn)

/-- the values of the command line by the names of the arguments -/
def cliV (ss : List (String × List String)) (n : String) : Val :=
  (((C134_rows ++ [C134_chk, C134_file, C134_nproj]).find? fun r => r.argument = n).map (C134_given ss)).getD .none

theorem cliV_row (ss : List (String × List String)) (r : C134_Row) (hr : r ∈ C134_rows ++ [C134_chk, C134_file, C134_nproj]) :
    cliV ss r.argument = C134_given ss r := by
  have h : ∀ r ∈ C134_rows ++ [C134_chk, C134_file, C134_nproj],
      ((C134_rows ++ [C134_chk, C134_file, C134_nproj]).find? fun q => q.argument = r.argument) = some r := by decide +kernel
  rw [cliV, h r hr]
  rfl

theorem cliNames_row : ∀ n ∈ cliNames, ∃ r ∈ C134_rows, r.argument = n := by decide +kernel

theorem cliNames_main : ∀ n ∈ cliNames ++ ["load_chk", "filename"], ∃ r ∈ C134_rows ++ [C134_chk, C134_file], r.argument = n := by
  decide +kernel

end

/-! ## Theorems -/

/-- **C134.**  For all command lines, with the options in any order and repeated or not, the programs `fanpy_make_script` and
`fanpy_make_fanci_script` call `make_script` with the values of the last options, and with the defaults for the other arguments. -/
theorem C134_script (w : Numbers) (ss : List (String × List String))
    (hl : C134_Line w (C134_rows ++ [C134_chk, C134_file, C134_nproj]) ss) (ht : ∃ s ∈ ss, s.1 = "--wfn_type") :
    ∀ p ∈ [Program.script, Program.fanci], ∃ args, p.run w (C134_words ss) = .ok args ∧
      (∀ r ∈ C134_rows ++ [C134_chk, C134_file], args.lookup r.argument = some (C134_given ss r)) ∧
      args.lookup "constraint" = some .none ∧ (p = .fanci → args.lookup "fanpt_kwargs" = some .none) := by
  obtain ⟨ns, h1, h2⟩ := cli_args cli_match_main hl ht
  have hV : ∀ n ∈ cliNames ++ ["load_chk", "filename"], ns.lookup n = some (cliV ss n) := by
    intro n hn
    obtain ⟨r, hr, rfl⟩ := cliNames_main n hn
    have hr' : r ∈ C134_rows ++ [C134_chk, C134_file, C134_nproj] := by
      simp only [List.mem_append, List.mem_cons, List.not_mem_nil, or_false] at hr ⊢
      tauto
    rw [h2 r hr', cliV_row ss r hr']
  have hin : ∀ r ∈ C134_rows ++ [C134_chk, C134_file], r.argument ∈ makeScriptParams.map Prod.fst ∧
      r.argument ∈ makeFanciScriptParams.map Prod.fst ∧ r.argument ≠ "constraint" ∧ r.argument ≠ "fanpt_kwargs" ∧
      r ∈ C134_rows ++ [C134_chk, C134_file, C134_nproj] := by decide +kernel
  intro p hp
  simp only [List.mem_cons, List.not_mem_nil, or_false] at hp
  rcases hp with rfl | rfl
  · refine ⟨_, by simp only [Program.run, h1, bind, Except.bind]; exact cli_call_script hV, fun r hr => ?_, ?_, by simp⟩
    · obtain ⟨i1, -, i2, -, i3⟩ := hin r hr
      rw [cli_lookup_map _ (fun n => if n = "constraint" then Val.none else cliV ss n) _ i1, if_neg i2, cliV_row ss r i3]
    · rw [cli_lookup_map _ (fun n => if n = "constraint" then Val.none else cliV ss n) _ (by decide +kernel), if_pos rfl]
  · refine ⟨_, by simp only [Program.run, h1, bind, Except.bind]; exact cli_call_fanci hV, fun r hr => ?_, ?_, fun _ => ?_⟩
    · obtain ⟨-, i1, i2, i4, i3⟩ := hin r hr
      rw [cli_lookup_map _ (fun n => if n = "constraint" ∨ n = "fanpt_kwargs" then Val.none else cliV ss n) _ i1, if_neg (by tauto),
        cliV_row ss r i3]
    · rw [cli_lookup_map _ (fun n => if n = "constraint" ∨ n = "fanpt_kwargs" then Val.none else cliV ss n) _ (by decide +kernel),
        if_pos (Or.inl rfl)]
    · rw [cli_lookup_map _ (fun n => if n = "constraint" ∨ n = "fanpt_kwargs" then Val.none else cliV ss n) _ (by decide +kernel),
        if_pos (Or.inr rfl)]

/-- **C134.**  The program `fanpy_run_calc` makes the script with the same arguments; it is returned and not printed or written. -/
theorem C134_run_calc (w : Numbers) (ss : List (String × List String)) (hl : C134_Line w (C134_rows ++ [C134_chk, C134_nproj]) ss)
    (ht : ∃ s ∈ ss, s.1 = "--wfn_type") :
    ∃ args, Program.runCalc.run w (C134_words ss) = .ok args ∧ (∀ r ∈ C134_rows, args.lookup r.argument = some (C134_given ss r)) ∧
      args.lookup "filename" = some (.num "-1") ∧ args.lookup "constraint" = some .none ∧
      -- the code disagrees: the checkpoint is not loaded
      args.lookup "load_chk" = some .none := by
  obtain ⟨ns, h1, h2⟩ := cli_args cli_match_run hl ht
  have hV : ∀ n ∈ cliNames, ns.lookup n = some (cliV ss n) := by
    intro n hn
    obtain ⟨r, hr, rfl⟩ := cliNames_row n hn
    rw [h2 r (List.mem_append_left _ hr), cliV_row ss r (List.mem_append_left _ hr)]
  have hN : ∀ n ∈ cliNames, n ∈ runCalcParams.map Prod.fst := by decide +kernel
  have hV2 : ∀ n ∈ cliNames, (runCalcParams.map fun p => (p.1, cliV ss p.1)).lookup n = some (cliV ss n) := fun n hn =>
    cli_lookup_map _ (cliV ss) n (hN n hn)
  have hin : ∀ r ∈ C134_rows, r.argument ∈ makeScriptParams.map Prod.fst ∧ r.argument ≠ "constraint" ∧ r.argument ≠ "load_chk" ∧
      r.argument ≠ "filename" := by decide +kernel
  let F : String → Val := fun n => if n = "constraint" ∨ n = "load_chk" then .none else if n = "filename" then .num "-1" else cliV ss n
  have hF := fun n (hn : n ∈ makeScriptParams.map Prod.fst) => cli_lookup_map makeScriptParams F n hn
  refine ⟨makeScriptParams.map fun p => (p.1, F p.1), ?_, fun r hr => ?_, ?_, ?_, ?_⟩
  · simp only [Program.run, h1, bind, Except.bind]
    rw [cli_call_run hV]
    exact cli_call_exec hV2
  · obtain ⟨i1, i2, i3, i4⟩ := hin r hr
    rw [hF _ i1]
    simp only [F]
    rw [if_neg (by tauto), if_neg i4, cliV_row ss r (List.mem_append_left _ hr)]
  · rw [hF _ (by decide +kernel)]; simp [F]
  · rw [hF _ (by decide +kernel)]; simp [F]
  · rw [hF _ (by decide +kernel)]; simp [F]

/-- **C134, disagreement.**  The number of projections has no effect: with and without the option `--nproj` the programs call `make_script` with
the same arguments. -/
theorem C134_nproj_disagrees (w : Numbers) (ss : List (String × List String)) (ht : ∃ s ∈ ss, s.1 = "--wfn_type") :
    (C134_Line w (C134_rows ++ [C134_chk, C134_file, C134_nproj]) ss →
      ∀ p ∈ [Program.script, Program.fanci], p.run w (C134_words ss) = p.run w (C134_words (ss.filter fun s => s.1 ≠ "--nproj"))) ∧
    (C134_Line w (C134_rows ++ [C134_chk, C134_nproj]) ss →
      Program.runCalc.run w (C134_words ss) = Program.runCalc.run w (C134_words (ss.filter fun s => s.1 ≠ "--nproj"))) := by
  have ht' : ∃ s ∈ ss.filter fun s => s.1 ≠ "--nproj", s.1 = "--wfn_type" := by
    obtain ⟨s, hs, e⟩ := ht
    exact ⟨s, by simp [hs, e], e⟩
  have hV : ∀ n ∈ cliNames ++ ["load_chk", "filename"], cliV (ss.filter fun s => s.1 ≠ "--nproj") n = cliV ss n := by
    intro n hn
    obtain ⟨r, hr, rfl⟩ := cliNames_main n hn
    have h1 : ∀ r ∈ C134_rows ++ [C134_chk, C134_file], r ∈ C134_rows ++ [C134_chk, C134_file, C134_nproj] ∧ r.option ≠ "--nproj" := by
      decide +kernel
    obtain ⟨h2, h3⟩ := h1 r hr
    rw [cliV_row _ r h2, cliV_row _ r h2, C134_given, C134_given, List.filter_filter]
    congr 4
    funext s
    by_cases e : s.1 = r.option
    · simp [e, h3]
    · simp [e]
  constructor
  · intro hl p hp
    have hl' : C134_Line w (C134_rows ++ [C134_chk, C134_file, C134_nproj]) (ss.filter fun s => s.1 ≠ "--nproj") := fun s hs =>
      hl s (List.mem_filter.1 hs).1
    obtain ⟨ns, h1, h2⟩ := cli_args cli_match_main hl ht
    obtain ⟨ms, g1, g2⟩ := cli_args cli_match_main hl' ht'
    have hmem : ∀ r ∈ C134_rows ++ [C134_chk, C134_file], r ∈ C134_rows ++ [C134_chk, C134_file, C134_nproj] := by decide +kernel
    have a1 : ∀ n ∈ cliNames ++ ["load_chk", "filename"], ns.lookup n = some (cliV ss n) := by
      intro n hn
      obtain ⟨r, hr, rfl⟩ := cliNames_main n hn
      rw [h2 r (hmem r hr), cliV_row ss r (hmem r hr)]
    have a2 : ∀ n ∈ cliNames ++ ["load_chk", "filename"], ms.lookup n = some (cliV ss n) := by
      intro n hn
      rw [← hV n hn]
      obtain ⟨r, hr, rfl⟩ := cliNames_main n hn
      rw [g2 r (hmem r hr), cliV_row _ r (hmem r hr)]
    simp only [List.mem_cons, List.not_mem_nil, or_false] at hp
    rcases hp with rfl | rfl
    · simp only [Program.run, h1, g1, bind, Except.bind]
      rw [cli_call_script a1, cli_call_script a2]
    · simp only [Program.run, h1, g1, bind, Except.bind]
      rw [cli_call_fanci a1, cli_call_fanci a2]
  · intro hl
    have hl' : C134_Line w (C134_rows ++ [C134_chk, C134_nproj]) (ss.filter fun s => s.1 ≠ "--nproj") := fun s hs =>
      hl s (List.mem_filter.1 hs).1
    obtain ⟨ns, h1, h2⟩ := cli_args cli_match_run hl ht
    obtain ⟨ms, g1, g2⟩ := cli_args cli_match_run hl' ht'
    have a1 : ∀ n ∈ cliNames, ns.lookup n = some (cliV ss n) := by
      intro n hn
      obtain ⟨r, hr, rfl⟩ := cliNames_row n hn
      rw [h2 r (List.mem_append_left _ hr), cliV_row ss r (List.mem_append_left _ hr)]
    have a2 : ∀ n ∈ cliNames, ms.lookup n = some (cliV ss n) := by
      intro n hn
      rw [← hV n (List.mem_append_left _ hn)]
      obtain ⟨r, hr, rfl⟩ := cliNames_row n hn
      rw [g2 r (List.mem_append_left _ hr), cliV_row _ r (List.mem_append_left _ hr)]
    simp only [Program.run, h1, g1, bind, Except.bind]
    rw [cli_call_run a1, cli_call_run a2]

/-- **C134.**  Without `--wfn_type`, and after a word that is not an option, all programs end before `make_script` is called. -/
theorem C134_refused (w : Numbers) (ss : List (String × List String)) (hl : C134_Line w (C134_rows ++ [C134_chk, C134_nproj]) ss) :
    ((∀ s ∈ ss, s.1 ≠ "--wfn_type") → ∀ p : Program, p.run w (C134_words ss) = .error .runtimeError) ∧
    (∀ o rest, o.toList.head? = some '-' → (∀ r ∈ C134_rows ++ [C134_chk, C134_file, C134_nproj], r.option ≠ o) →
      ∀ p : Program, p.run w (C134_words ss ++ o :: rest) = .error .runtimeError) := by
  have hsub : ∀ r ∈ C134_rows ++ [C134_chk, C134_nproj], r ∈ C134_rows ++ [C134_chk, C134_file, C134_nproj] := by decide +kernel
  have hl2 : C134_Line w (C134_rows ++ [C134_chk, C134_file, C134_nproj]) ss := fun s hs => by
    obtain ⟨r, hr, h⟩ := hl s hs
    exact ⟨r, hsub r hr, h⟩
  constructor
  · intro ht
    have key : ∀ {opts rows}, CliMatch opts rows → C134_Line w rows ss → parseArgs w opts (C134_words ss) = .error .runtimeError := by
      intro opts rows M hl
      obtain ⟨ns, h1, h2⟩ := cli_ns M hl
      have h3 := h2 _ M.type
      have h4 : C134_given ss ⟨"--wfn_type", "wfn_type", .text, .none⟩ = .none := by
        have : (ss.filter fun s => s.1 = "--wfn_type") = [] := by
          rw [List.filter_eq_nil_iff]
          intro s hs
          simpa using ht s hs
        simp [C134_given, this]
      simp only [parseArgs, h1, bind, Except.bind]
      rw [if_pos]
      rw [h3, h4]
    have k1 := key cli_match_main hl2
    have k2 := key cli_match_run hl
    intro p
    cases p <;> simp only [Program.run, k1, k2, bind, Except.bind]
  · intro o rest hd hno
    have key : ∀ {opts rows}, CliMatch opts rows → C134_Line w rows ss → (∀ p ∈ opts, p.name ≠ o) →
        parseArgs w opts (C134_words ss ++ o :: rest) = .error .runtimeError := by
      intro opts rows M hl hn
      have hp := cli_parse (w := w) opts M.dash ss (fun s hs => by
        obtain ⟨r, hr, h1, h2⟩ := hl s hs
        exact ⟨_, h1 ▸ M.find r hr, h2⟩) (o :: rest) (by simp [Script.dashed, hd]) (opts.map fun p => (p.dest, p.default))
      have hf : (opts.find? fun p => p.name = o) = none := by
        rw [List.find?_eq_none]
        intro p hp
        simpa using hn p hp
      rw [parse, hf] at hp
      simp only [parseArgs, hp, bind, Except.bind]
    have hopt : ∀ p ∈ options ++ [filenameOption], ∃ r ∈ C134_rows ++ [C134_chk, C134_file, C134_nproj], r.option = p.name := by
      decide +kernel
    have k1 := key cli_match_main hl2 fun p hp => by
      obtain ⟨r, hr, e⟩ := hopt p hp
      rw [← e]; exact hno r hr
    have k2 := key cli_match_run hl fun p hp => by
      obtain ⟨r, hr, e⟩ := hopt p (List.mem_append_left _ hp)
      rw [← e]; exact hno r hr
    intro p
    cases p <;> simp only [Program.run, k1, k2, bind, Except.bind]

/-- **C134, disagreement.**  The `main` function of `make_cc_embedding_script.py` calls its `make_script` with arguments that it does not have:
no command line makes a script. -/
theorem C134_embedding_disagrees (w : Numbers) (words : List String) : ∃ e, Program.embedding.run w words = .error e := by
  simp only [Program.run, bind, Except.bind]
  cases parseArgs w (options ++ [filenameOption]) words with
  | error e => exact ⟨e, rfl⟩
  | ok ns =>
    simp only [callWith, bind, Except.bind]
    cases hp : positional.mapM (attr ns) with
    | error e => exact ⟨e, rfl⟩
    | ok pos =>
      cases hk : keywords ns (mainKeywords ++ [("nproj", "nproj")]) with
      | error e => exact ⟨e, rfl⟩
      | ok kw =>
        refine ⟨.typeError, ?_⟩
        simp only [bindCall]
        split
        · rfl
        · rw [if_pos]
          have : ∃ v kws, kw = ("nuc_nuc", v) :: kws := by
            simp only [keywords, mainKeywords, sharedKeywords, List.cons_append, List.mapM_cons, bind, Except.bind] at hk
            cases ha : attr ns "nuc_nuc" with
            | error e => rw [ha] at hk; simp [Except.map] at hk
            | ok v =>
              rw [ha] at hk
              simp only [Except.map] at hk
              split at hk
              · cases hk
              · injection hk with hk
                exact ⟨v, _, hk.symm⟩
          obtain ⟨v, kws, rfl⟩ := this
          rw [List.cons_append, List.any_cons]
          simp [embeddingParams]

/-- a command line with two excitation orders, a flag, a repeated option and a checkpoint -/
example : let w : Numbers := ⟨fun s => s.toList.all Char.isDigit, fun _ => true⟩
    let ss := [("--pspace", ["1", "3"]), ("--solver", ["root"]), ("--optimize_orbs", []), ("--wfn_type", ["fci"]), ("--solver", ["cma"]),
      ("--load_chk", ["a.npy"]), ("--nproj", ["5"])]
    C134_Line w (C134_rows ++ [C134_chk, C134_nproj]) ss ∧
    C134_words ss = ["--pspace", "1", "3", "--solver", "root", "--optimize_orbs", "--wfn_type", "fci", "--solver", "cma", "--load_chk", "a.npy",
      "--nproj", "5"] ∧
    (Program.script.run w (C134_words ss)).map (fun l => (l.lookup "pspace_exc", l.lookup "solver", l.lookup "optimize_orbs", l.lookup "load_chk"))
      = .ok (some (.nums ["1", "3"]), some (.str "cma"), some (.bool true), some (.str "a.npy")) ∧
    (Program.runCalc.run w (C134_words ss)).map (fun l => (l.lookup "solver", l.lookup "load_chk"))
      = .ok (some (.str "cma"), some .none) := by
  intro w ss
  have hl : C134_Line w (C134_rows ++ [C134_chk, C134_nproj]) ss := by
    intro s hs
    simp only [ss, List.mem_cons, List.not_mem_nil, or_false] at hs
    rcases hs with rfl | rfl | rfl | rfl | rfl | rfl | rfl
    · refine ⟨⟨"--pspace", "pspace_exc", .ints, .nums ["1", "2"]⟩, by decide +kernel, rfl, by simp, ?_⟩
      intro v hv
      simp only [List.mem_cons, List.not_mem_nil, or_false] at hv
      rcases hv with rfl | rfl <;> simp [C134_plain, w]
    · exact ⟨⟨"--solver", "solver", .text, .str "least_squares"⟩, by decide +kernel, rfl, _, rfl, by simp [C134_plain]⟩
    · exact ⟨⟨"--optimize_orbs", "optimize_orbs", .flag, .bool false⟩, by decide +kernel, rfl, rfl⟩
    · exact ⟨⟨"--wfn_type", "wfn_type", .text, .none⟩, by decide +kernel, rfl, _, rfl, by simp [C134_plain]⟩
    · exact ⟨⟨"--solver", "solver", .text, .str "least_squares"⟩, by decide +kernel, rfl, _, rfl, by simp [C134_plain]⟩
    · exact ⟨C134_chk, by decide +kernel, rfl, _, rfl, by simp [C134_plain]⟩
    · exact ⟨C134_nproj, by decide +kernel, rfl, _, rfl, by simp [C134_plain], rfl⟩
  refine ⟨hl, rfl, ?_, ?_⟩
  · obtain ⟨args, h1, h2, -⟩ := C134_script w ss (fun s hs => by
      obtain ⟨r, hr, h⟩ := hl s hs
      have hsub : ∀ r ∈ C134_rows ++ [C134_chk, C134_nproj], r ∈ C134_rows ++ [C134_chk, C134_file, C134_nproj] := by decide +kernel
      exact ⟨r, hsub r hr, h⟩) ⟨("--wfn_type", ["fci"]), by simp [ss], rfl⟩ .script (by simp)
    have e1 := h2 ⟨"--pspace", "pspace_exc", .ints, .nums ["1", "2"]⟩ (by decide +kernel)
    have e2 := h2 ⟨"--solver", "solver", .text, .str "least_squares"⟩ (by decide +kernel)
    have e3 := h2 ⟨"--optimize_orbs", "optimize_orbs", .flag, .bool false⟩ (by decide +kernel)
    have e4 := h2 C134_chk (by decide +kernel)
    rw [h1]
    simp only [Except.map, C134_chk] at e1 e2 e3 e4 ⊢
    rw [e1, e2, e3, e4]
    simp [C134_given, C134_value, ss]
  · obtain ⟨args, h1, h2, -, -, h3⟩ := C134_run_calc w ss hl ⟨("--wfn_type", ["fci"]), by simp [ss], rfl⟩
    have e2 := h2 ⟨"--solver", "solver", .text, .str "least_squares"⟩ (by decide +kernel)
    rw [h1]
    simp only [Except.map] at e2 ⊢
    rw [e2, h3]
    simp [C134_given, C134_value, ss]

end Fanpy.Props
