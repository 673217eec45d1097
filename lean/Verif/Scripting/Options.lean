import Mathlib.Data.Nat.Notation
import Mathlib.Data.Int.Notation
import Mathlib.Data.List.Nodup
import Mathlib.Data.List.Infix
import Mathlib.Data.Bool.Basic

/-!
# The command lines of the scripts (C145)

Every script declares options with `optparse`, many of them through `add_standard_options` of
`/repo/aipy/scripting.py` 11-44, which adds the options its caller asks for.  An option string that is declared twice raises
when the script starts.  Modelled: the declarations of all scripts (names, destination, whether a value follows and of which
type) and, from the documentation of Python's `optparse`, how a command line is read: `-a v`, `-av`, `--ant v`, `--ant=v`,
flags, flags joined to one word, unambiguous abbreviations of long names, `--`, arguments between options.  Not modelled:
help texts, how a number is written (`num` decides), defaults other than those of `add_standard_options`.
-/

set_option linter.unusedVariables false
set_option linter.unusedSimpArgs false

namespace Verif.Options

/-- a word of the command line -/
abbrev Str := List Char

/-- type of a value -/
inductive Ty where
  | str
  | int
  | float
  deriving DecidableEq, Repr

/-- what an option does: `store`, `store_true`, or print the help and stop -/
inductive Kind where
  | value (ty : Ty)
  | flag
  | help
  deriving DecidableEq, Repr

/-- what a destination holds -/
inductive Val where
  | none
  | text (s : Str)
  | number (ty : Ty) (s : Str)
  | int (n : ℤ)
  | yes
  deriving DecidableEq, Repr

/-- an option -/
structure Opt where
  names : List Str
  dest : Str
  kind : Kind
  deflt : Val
  deriving DecidableEq, Repr

/-- options declared so far -/
abbrev Parser := List Opt

/-- the option every parser starts with -/
def helpOpt : Opt := ⟨["-h".toList, "--help".toList], [], .help, .none⟩

/-- a parser without declarations -/
def newParser : Parser := [helpOpt]

/-- `OptionParser.add_option`; `none` is the OptionConflictError of a name that exists -/
def addOption (p : Parser) (o : Opt) : Option Parser :=
  if o.names.any fun n => p.any fun q => q.names.contains n then none else some (p ++ [o])

/-- what to add, scripting.py 11-13 -/
structure Flags where
  ant : Bool := false
  pol : Bool := false
  chan : Bool := false
  cal : Bool := false
  src : Bool := false
  prms : Bool := false
  dec : Bool := false
  cmap : Bool := false
  max : Bool := false
  drng : Bool := false

/-- an option with a value -/
def val (names : List String) (dest : String) (ty : Ty) (d : Val) : Opt :=
  ⟨names.map String.toList, dest.toList, .value ty, d⟩

/-- an option without a value -/
def flg (names : List String) (dest : String) : Opt := ⟨names.map String.toList, dest.toList, .flag, .none⟩

/-- `if asked: add_option(...)` -/
def addIf (asked : Bool) (o : Opt) (p : Parser) : Option Parser := if asked then addOption p o else some p

/-- `add_standard_options`, scripting.py 11-44 -/
def addStandard (f : Flags) (p : Parser) : Option Parser := do
  let p ← addIf f.ant (val ["-a", "--ant"] "ant" .str (.text "cross".toList)) p
  let p ← addIf f.pol (val ["-p", "--pol"] "pol" .str (.int (-1))) p
  let p ← addIf f.chan (val ["-c", "--chan"] "chan" .str (.text "all".toList)) p
  let p ← addIf f.cal (val ["-C", "--cal"] "cal" .str .none) p
  let p ← addIf f.src (val ["-s", "--src"] "src" .str .none) p
  let p ← addIf f.src (val ["--cat"] "cat" .str (.text "helm,misc".toList)) p
  let p ← addIf f.prms (val ["-P", "--prms"] "prms" .str .none) p
  let p ← addIf f.dec (val ["-x", "--decimate"] "decimate" .int (.int 1)) p
  let p ← addIf f.dec (val ["--dphs"] "decphs" .int (.int 0)) p
  let p ← addIf f.cmap (val ["--cmap"] "cmap" .str (.text "jet".toList)) p
  let p ← addIf f.max (val ["--max"] "max" .float .none) p
  addIf f.drng (val ["--drng"] "drng" .float .none) p

/-- a script: what it asks of `add_standard_options` and its own options, in order -/
structure Script where
  name : String
  flags : Flags
  own : List Opt
  /-- the attributes of the result of `parse_args` that the script reads -/
  reads : List String

/-- the declarations of a script, carried out -/
def build (s : Script) : Option Parser := do
  let p ← addStandard s.flags newParser
  s.own.foldlM addOption p

/-- what has been read of a command line -/
structure St where
  vals : Str → Val
  args : List Str

/-- the end of a script before it begins -/
inductive Stop where
  | usage
  | help
  deriving DecidableEq, Repr

/-- the option of a name -/
def lookup (p : Parser) (n : Str) : Option Opt := p.find? fun o => o.names.contains n

/-- is it a long name -/
def isLong (n : Str) : Bool := decide (n.take 2 = ['-', '-']) && decide (3 ≤ n.length)

/-- optparse's `_match_abbrev`: the name itself, or the only long name that begins with it -/
def matchLong (p : Parser) (n : Str) : Option Opt :=
  match lookup p n with
  | some o => some o
  | none => match (p.flatMap Opt.names).filter fun m => isLong m && n.isPrefixOf m with
    | [m] => lookup p m
    | _ => none

/-- set a destination -/
def put (s : St) (d : Str) (v : Val) : St := { s with vals := fun k => if k = d then v else s.vals k }

/-- the value as its type, if it is one -/
def convert (num : Ty → Str → Bool) (ty : Ty) (v : Str) : Option Val :=
  match ty with
  | .str => some (.text v)
  | t => if num t v then some (.number t v) else none

/-- an option takes a value -/
def store (num : Ty → Str → Bool) (o : Opt) (v : Str) (s : St) : Except Stop St :=
  match o.kind with
  | .value ty => match convert num ty v with
    | some x => .ok (put s o.dest x)
    | none => .error .usage
  | _ => .error .usage

/-- a word of short options, after its hyphen: flags until an option that takes the rest, or the next word, as its value -/
def shorts (num : Ty → Str → Bool) (p : Parser) : Str → St → Except Stop (St × Option Opt)
  | [], s => .ok (s, none)
  | c :: cs, s =>
    match lookup p ['-', c] with
    | none => .error .usage
    | some o =>
      match o.kind with
      | .flag => shorts num p cs (put s o.dest .yes)
      | .help => .error .help
      | .value _ => if cs = [] then .ok (s, some o) else (store num o cs s).map fun s => (s, none)

/-- the name and the value of a word with `=` -/
def splitEq : Str → Str × Option Str
  | [] => ([], none)
  | '=' :: cs => ([], some cs)
  | c :: cs => (c :: (splitEq cs).1, (splitEq cs).2)

/-- a word that begins with two hyphens -/
def long (num : Ty → Str → Bool) (p : Parser) (w : Str) (s : St) : Except Stop (St × Option Opt) :=
  match matchLong p (splitEq w).1 with
  | none => .error .usage
  | some o =>
    match o.kind, (splitEq w).2 with
    | .value _, some v => (store num o v s).map fun s => (s, none)
    | .value _, none => .ok (s, some o)
    | .flag, none => .ok (put s o.dest .yes, none)
    | .help, none => .error .help
    | _, some _ => .error .usage

/-- the kinds of words -/
inductive Word where
  | dashes
  | long
  | short (cs : Str)
  | arg

/-- which kind a word is -/
def classify (w : Str) : Word :=
  if w = ['-', '-'] then .dashes
  else if w.take 2 = ['-', '-'] then .long
  else if w.head? = some '-' ∧ 1 < w.length then .short w.tail
  else .arg

/-- `parse_args`: `wait` is the option whose value is the next word -/
def parse (num : Ty → Str → Bool) (p : Parser) : Option Opt → List Str → St → Except Stop St
  | none, [], s => .ok s
  | some _, [], _ => .error .usage
  | some o, v :: rest, s =>
    match store num o v s with
    | .ok s => parse num p none rest s
    | .error e => .error e
  | none, w :: rest, s =>
    match classify w with
    | .dashes => .ok { s with args := s.args ++ rest }
    | .long => match long num p w s with
      | .ok (s, wait) => parse num p wait rest s
      | .error e => .error e
    | .short cs => match shorts num p cs s with
      | .ok (s, wait) => parse num p wait rest s
      | .error e => .error e
    | .arg => parse num p none rest { s with args := s.args ++ [w] }

/-- before anything is read -/
def start (p : Parser) : St :=
  ⟨fun d => match p.find? fun o => o.dest = d with
    | some o => o.deflt
    | none => .none, []⟩

/-- amp_close.py 18-23 (defaults of its own options left out); what is read as `opts.x` is from the whole file -/
def sAmpClose : Script := ⟨"amp_close.py", {}, [
  val ["-C", "--cal"] "cal" .str .none,
  val ["-f", "--flag"] "flag" .str .none,
  flg ["-p", "--plots"] "plots",
  val ["-s", "--src"] "src" .str .none,
  val ["--minuv"] "minuv" .float .none,
  val ["--wgt"] "wgt" .str .none],
  ["cal", "flag", "minuv", "plots", "src", "wgt"]⟩

/-- apply_bp.py 28-30 (defaults of its own options left out); what is read as `opts.x` is from the whole file -/
def sApplyBp : Script := ⟨"apply_bp.py", {}, [
  val ["-l", "--linearization"] "linearization" .str .none,
  val ["-s", "--scale"] "scale" .float .none],
  ["linearization", "scale"]⟩

/-- apply_cal.py 13-15 (defaults of its own options left out); what is read as `opts.x` is from the whole file -/
def sApplyCal : Script := ⟨"apply_cal.py", { cal := true }, [
  flg ["--no_gain"] "no_gain",
  flg ["--no_phs"] "no_phs"],
  ["cal", "no_gain", "no_phs"]⟩

/-- cl_img.py 15-33 (defaults of its own options left out); what is read as `opts.x` is from the whole file -/
def sClImg : Script := ⟨"cl_img.py", {}, [
  val ["-d", "--deconv"] "deconv" .str .none,
  val ["-o", "--output"] "output" .str .none,
  val ["--var"] "var" .float .none,
  val ["--tol"] "tol" .float .none,
  flg ["--div"] "div",
  val ["--minuv"] "minuv" .float .none,
  val ["--maxuv"] "maxuv" .float .none,
  val ["-r", "--rewgt"] "rewgt" .str .none,
  val ["-g", "--gain"] "gain" .float .none,
  flg ["--pos_def"] "pos_def",
  val ["--maxiter"] "maxiter" .int .none],
  ["deconv", "div", "gain", "maxiter", "maxuv", "minuv", "output", "pos_def", "rewgt", "tol", "var"]⟩

/-- combine_freqs.py 20-26 (defaults of its own options left out); what is read as `opts.x` is from the whole file -/
def sCombineFreqs : Script := ⟨"combine_freqs.py", {}, [
  val ["-n", "--nchan"] "nchan" .int .none,
  flg ["-c", "--careful_flag"] "careful_flag",
  flg ["-d", "--dont_flag"] "dont_flag",
  flg ["-u", "--unify"] "unify"],
  ["careful_flag", "dont_flag", "nchan", "unify"]⟩

/-- compress_uv.py 17-19 (defaults of its own options left out); what is read as `opts.x` is from the whole file -/
def sCompressUv : Script := ⟨"compress_uv.py", {}, [
  flg ["-d", "--delete"] "delete",
  flg ["-x", "--expand"] "expand"],
  ["delete", "expand"]⟩

/-- filter_src.py 32-42 (defaults of its own options left out); what is read as `opts.x` is from the whole file -/
def sFilterSrc : Script := ⟨"filter_src.py", { src := true, cal := true }, [
  val ["-p", "--pol"] "pol" .str .none,
  val ["-r", "--drw"] "drw" .int .none,
  val ["-d", "--dw"] "dw" .int .none,
  flg ["-P", "--passband"] "passband",
  flg ["-e", "--extract"] "extract",
  val ["--clean"] "clean" .float .none],
  ["cal", "cat", "clean", "drw", "dw", "extract", "passband", "pol", "src"]⟩

/-- find_delay.py 19-21 (defaults of its own options left out); what is read as `opts.x` is from the whole file -/
def sFindDelay : Script := ⟨"find_delay.py", {}, [
  val ["-C", "--cal"] "cal" .str .none,
  val ["-f", "--flag"] "flag" .str .none,
  flg ["-p", "--plots"] "plots"],
  ["cal", "flag", "plots"]⟩

/-- fitmdl.py 16-40 (defaults of its own options left out); what is read as `opts.x` is from the whole file -/
def sFitmdl : Script := ⟨"fitmdl.py", { ant := true, pol := true, chan := true, cal := true, src := true, dec := true, prms := true }, [
  val ["-S", "--shared_prms"] "shprms" .str .none,
  flg ["--snap"] "snap",
  flg ["-q", "--quiet"] "quiet",
  val ["--maxiter"] "maxiter" .float .none,
  val ["--xtol"] "xtol" .float .none,
  val ["--ftol"] "ftol" .float .none,
  flg ["--remem"] "remember",
  val ["--baseport"] "baseport" .int .none,
  val ["--daemon"] "daemon" .int .none,
  val ["--master"] "master" .str .none,
  flg ["--sim_autos"] "sim_autos",
  val ["--minuv"] "minuv" .float .none],
  ["ant", "baseport", "cal", "cat", "chan", "daemon", "decimate", "decphs", "ftol", "master", "maxiter", "minuv", "pol",
  "prms", "quiet", "remember", "shprms", "sim_autos", "snap", "src", "xtol"]⟩

/-- flux_cal.py 19-24 (defaults of its own options left out); what is read as `opts.x` is from the whole file -/
def sFluxCal : Script := ⟨"flux_cal.py", { src := true, cal := true }, [
  flg ["-b", "--beam"] "beam",
  flg ["-p", "--passband"] "passband",
  flg ["-f", "--srcflux"] "srcflux"],
  ["beam", "cal", "cat", "passband", "src", "srcflux"]⟩

/-- inspect_phs_close.py 19-23 (defaults of its own options left out); what is read as `opts.x` is from the whole file -/
def sInspectPhsClose : Script := ⟨"inspect_phs_close.py", {}, [
  val ["-C", "--cal"] "cal" .str .none,
  val ["-f", "--flag"] "flag" .str .none,
  val ["--fixant"] "fixant" .str .none,
  val ["--refant"] "refant" .str .none,
  flg ["-p", "--plots"] "plots"],
  ["cal", "fixdelay", "flag", "plots", "refant"]⟩

/-- lst 14-14 (defaults of its own options left out); what is read as `opts.x` is from the whole file -/
def sLst : Script := ⟨"lst", { cal := true, src := true }, [],
  ["cal", "cat", "src"]⟩

/-- mdlvis.py 18-43 (defaults of its own options left out); what is read as `opts.x` is from the whole file -/
def sMdlvis : Script := ⟨"mdlvis.py", { ant := true, cal := true, src := true }, [
  val ["-m", "--mode"] "mode" .str .none,
  flg ["-f", "--flag"] "flag",
  val ["-n", "--noiselev"] "noiselev" .float .none,
  val ["--nchan"] "nchan" .int .none,
  val ["--sfreq"] "sfreq" .float .none,
  val ["--sdf"] "sdf" .float .none,
  val ["--inttime"] "inttime" .float .none,
  val ["--startjd"] "startjd" .float .none,
  val ["--endjd"] "endjd" .float .none,
  val ["--pol"] "pol" .str .none],
  ["ant", "cal", "cat", "endjd", "flag", "inttime", "mode", "nchan", "noiselev", "pol", "sdf", "sfreq", "src",
  "startjd"]⟩

/-- mk_img.py 17-53 (defaults of its own options left out); what is read as `opts.x` is from the whole file -/
def sMkImg : Script := ⟨"mk_img.py", { ant := true, pol := true, chan := true, cal := true, src := true, dec := true }, [
  val ["-o", "--output"] "output" .str .none,
  flg ["--list_facets"] "list_facets",
  val ["--facets"] "facets" .int .none,
  val ["--snap"] "snap" .int .none,
  val ["--cnt"] "cnt" .int .none,
  val ["--fmt"] "fmt" .str .none,
  flg ["--skip_phs"] "skip_phs",
  flg ["--zen_phased"] "zen_phased",
  flg ["--skip_amp"] "skip_amp",
  flg ["--skip_bm"] "skip_bm",
  val ["--skip"] "skip" .int .none,
  val ["--size"] "size" .int .none,
  val ["--res"] "res" .float .none,
  flg ["--no_w"] "no_w",
  val ["--wres"] "wres" .float .none,
  val ["--altmin"] "altmin" .float .none,
  val ["--minuv"] "minuv" .float .none,
  val ["--buf_thresh"] "buf_thresh" .float .none],
  ["altmin", "ant", "buf_thresh", "cal", "cat", "chan", "cnt", "decimate", "decphs", "facets", "fmt", "list_facets",
  "minuv", "no_w", "output", "pol", "res", "size", "skip", "skip_amp", "skip_bm", "skip_phs", "snap", "src", "wres",
  "zen_phased"]⟩

/-- mk_map.py 17-23 (defaults of its own options left out); what is read as `opts.x` is from the whole file -/
def sMkMap : Script := ⟨"mk_map.py", {}, [
  flg ["-i", "--interpolate"] "interpolate",
  val ["-m", "--map"] "map" .str .none,
  val ["--nside"] "nside" .int .none,
  val ["--fwidth"] "fwidth" .float .none],
  ["fwidth", "interpolate", "map", "nside"]⟩

/-- modmap.py 10-35 (defaults of its own options left out); what is read as `opts.x` is from the whole file -/
def sModmap : Script := ⟨"modmap.py", { src := true, cal := true }, [
  val ["-m", "--map"] "map" .str .none,
  val ["-i", "--in_map"] "in_map" .str .none,
  val ["-f", "--freq"] "freq" .float .none,
  val ["-j", "--juldate"] "juldate" .float .none,
  val ["--nside"] "nside" .int .none,
  val ["--nindices"] "nindices" .int .none,
  val ["--mscale"] "mscale" .float .none,
  val ["--sscale"] "sscale" .float .none,
  val ["--iepoch"] "iepoch" .str .none,
  val ["--oepoch"] "oepoch" .str .none,
  val ["--isys"] "isys" .str .none,
  val ["--osys"] "osys" .str .none,
  val ["--dtype"] "dtype" .str .none],
  ["cal", "cat", "dtype", "freq", "iepoch", "in_map", "isys", "juldate", "map", "mscale", "nindices", "nside", "oepoch",
  "osys", "src", "sscale"]⟩

/-- phs2src.py 15-18 (defaults of its own options left out); what is read as `opts.x` is from the whole file -/
def sPhs2src : Script := ⟨"phs2src.py", { cal := true, src := true }, [
  flg ["--setphs"] "setphs",
  flg ["--rot_uvw"] "rot_uvw"],
  ["cal", "cat", "rot_uvw", "setphs", "src"]⟩

/-- plot_img.py 16-27 (defaults of its own options left out); what is read as `opts.x` is from the whole file -/
def sPlotImg : Script := ⟨"plot_img.py", { chan := true, cmap := true, max := true, drng := true }, [
  val ["-m", "--mode"] "mode" .str .none,
  val ["-o", "--outfile"] "outfile" .str .none,
  val ["-p", "--pol"] "pol" .int .none,
  flg ["--batch"] "batch",
  flg ["--nogrid"] "nogrid",
  flg ["-f", "--fft"] "fft"],
  ["batch", "chan", "cmap", "drng", "fft", "max", "mode", "nogrid", "outfile", "pol"]⟩

/-- plot_map.py 70-102 (defaults of its own options left out); what is read as `opts.x` is from the whole file -/
def sPlotMap : Script := ⟨"plot_map.py", { cal := true, src := true, cmap := true, max := true, drng := true }, [
  val ["-p", "--projection"] "projection" .str .none,
  val ["-m", "--mode"] "mode" .str .none,
  val ["--interpolation"] "interpolation" .str .none,
  val ["-c", "--cen"] "cen" .float .none,
  val ["-j", "--juldate"] "juldate" .float .none,
  val ["--src_mark"] "src_mark" .str .none,
  val ["--src_color"] "src_color" .str .none,
  val ["-o", "--outfile"] "outfile" .str .none,
  val ["--isys"] "isys" .str .none,
  val ["--osys"] "osys" .str .none,
  val ["--iepoch"] "iepoch" .float .none,
  val ["--oepoch"] "oepoch" .float .none,
  flg ["--nobar"] "nobar",
  val ["--res"] "res" .float .none,
  val ["--nside"] "nside" .int .none,
  val ["--mask"] "mask" .float .none],
  ["cal", "cat", "cen", "cmap", "drng", "iepoch", "interpolation", "isys", "juldate", "mask", "max", "mode", "nobar",
  "nside", "oepoch", "osys", "outfile", "projection", "res", "src", "src_color", "src_mark"]⟩

/-- plot_uv.py 23-56 (defaults of its own options left out); what is read as `opts.x` is from the whole file -/
def sPlotUv : Script := ⟨"plot_uv.py", { src := true, ant := true, pol := true, chan := true, dec := true, cmap := true, max := true, drng := true, cal := true }, [
  val ["-m", "--mode"] "mode" .str .none,
  val ["-t", "--time"] "time" .str .none,
  flg ["-u", "--unmask"] "unmask",
  flg ["-d", "--delay"] "delay",
  flg ["-f", "--fringe"] "fringe",
  flg ["--dt"] "dt",
  flg ["--df"] "df",
  val ["-o", "--out_file"] "out_file" .str .none,
  val ["--time_axis"] "time_axis" .str .none,
  val ["--chan_axis"] "chan_axis" .str .none,
  val ["--clean"] "clean" .float .none,
  flg ["--nolegend"] "nolegend",
  flg ["--share"] "share",
  val ["--xlim"] "xlim" .str .none,
  val ["--ylim"] "ylim" .str .none,
  val ["--plot_each"] "plot_each" .str .none,
  val ["--window"] "window" .str .none],
  ["ant", "cal", "cat", "chan", "chan_axis", "clean", "cmap", "decimate", "decphs", "delay", "df", "drng", "dt",
  "fringe", "max", "mode", "nolegend", "out_file", "plot_each", "pol", "share", "src", "time", "time_axis", "unmask",
  "window", "xlim", "ylim"]⟩

/-- pull_ants.py 15-15 (defaults of its own options left out); what is read as `opts.x` is from the whole file -/
def sPullAnts : Script := ⟨"pull_ants.py", {}, [
  val ["-a", "--ants"] "ants" .str .none],
  ["ants", "refant"]⟩

/-- pull_pol.py 15-15 (defaults of its own options left out); what is read as `opts.x` is from the whole file -/
def sPullPol : Script := ⟨"pull_pol.py", {}, [
  val ["-p", "--pols"] "pols" .str .none],
  ["pols"]⟩

/-- rfi_diagnostic.py 20-28 (defaults of its own options left out); what is read as `opts.x` is from the whole file -/
def sRfiDiagnostic : Script := ⟨"rfi_diagnostic.py", { ant := true, pol := true }, [
  flg ["-m", "--max_hold"] "max_hold",
  flg ["-d", "--dwell_time"] "dwell",
  val ["-x", "--x_axis"] "x_axis" .str .none,
  flg ["-l", "--log"] "log",
  val ["-s", "--str"] "strategy" .str .none,
  flg ["--best"] "best",
  val ["-g", "--gom"] "gom" .str .none,
  flg ["--sum"] "sum"],
  ["ant", "best", "dwell", "gom", "log", "max_hold", "pol", "strategy", "sum", "x_axis"]⟩

/-- srclist.py 15-34 (defaults of its own options left out); what is read as `opts.x` is from the whole file -/
def sSrclist : Script := ⟨"srclist.py", { src := true, cal := true }, [
  val ["-P", "--prms"] "prms" .str .none,
  val ["-x", "--exclude"] "exclude" .str .none,
  val ["-c", "--cen"] "centers" .str .none,
  val ["-j", "--juldate"] "juldate" .float .none,
  val ["--ra"] "ra_rng" .str .none,
  val ["--dec"] "dec_rng" .str .none,
  val ["--sep"] "sep" .float .none,
  val ["--divstr"] "divstr" .str .none,
  flg ["-v"] "verb",
  flg ["--fitprms"] "fitprms"],
  ["cal", "cat", "centers", "dec_rng", "divstr", "exclude", "fitprms", "juldate", "prms", "ra_rng", "sep", "src",
  "verb"]⟩

/-- uv_addsub.py 15-15 (defaults of its own options left out); what is read as `opts.x` is from the whole file -/
def sUvAddsub : Script := ⟨"uv_addsub.py", {}, [
  flg ["--sub"] "sub"],
  ["sub"]⟩

/-- uvlist.py 17-17 (defaults of its own options left out); what is read as `opts.x` is from the whole file -/
def sUvlist : Script := ⟨"uvlist.py", {}, [
  val ["-k", "--key"] "key" .str .none],
  ["key"]⟩

/-- xrfi.py 17-31 (defaults of its own options left out); what is read as `opts.x` is from the whole file -/
def sXrfi : Script := ⟨"xrfi.py", {}, [
  val ["-c", "--chan"] "chan" .str .none,
  val ["-n", "--nsig"] "nsig" .float .none,
  val ["-m", "--flagmode"] "flagmode" .str .none,
  flg ["-s", "--share"] "share",
  val ["--ch_thresh"] "ch_thresh" .float .none,
  val ["--int_thresh"] "int_thresh" .float .none,
  flg ["--raw"] "raw",
  flg ["--reflag"] "reflag"],
  ["ch_thresh", "chan", "flagmode", "int_thresh", "nsig", "raw", "reflag", "share"]⟩

/-- xrfi_simple.py 9-26 (defaults of its own options left out); what is read as `opts.x` is from the whole file -/
def sXrfiSimple : Script := ⟨"xrfi_simple.py", { ant := true }, [
  val ["-c", "--chan"] "chan" .str .none,
  val ["-n", "--nsig"] "nsig" .float .none,
  val ["--df"] "df" .float .none,
  val ["--dt"] "dt" .float .none,
  flg ["--combine"] "combine",
  val ["--to_npz"] "to_npz" .str .none,
  val ["--from_npz"] "from_npz" .str .none,
  val ["-t", "--thresh"] "thresh" .int .none],
  ["ant", "chan", "combine", "df", "dt", "from_npz", "nsig", "thresh", "to_npz"]⟩

/-- xtalk3.py 26-32 (defaults of its own options left out); what is read as `opts.x` is from the whole file -/
def sXtalk3 : Script := ⟨"xtalk3.py", {}, [
  flg ["-i", "--infile"] "infile",
  flg ["-o", "--outfile"] "outfile",
  flg ["-r", "--reprocess"] "reprocess",
  val ["-c", "--chan"] "chan" .str .none],
  ["chan", "infile", "outfile", "reprocess"]⟩

/-- all the scripts that declare options -/
def scripts : List Script := [sAmpClose, sApplyBp, sApplyCal, sClImg, sCombineFreqs, sCompressUv, sFilterSrc,
  sFindDelay, sFitmdl, sFluxCal, sInspectPhsClose, sLst, sMdlvis, sMkImg, sMkMap, sModmap, sPhs2src, sPlotImg, sPlotMap,
  sPlotUv, sPullAnts, sPullPol, sRfiDiagnostic, sSrclist, sUvAddsub, sUvlist, sXrfi, sXrfiSimple, sXtalk3]

/-! ## Specification -/

/-- a name as optparse wants it: a hyphen and a character, or two hyphens and a word -/
def goodName (n : Str) : Bool :=
  (n.length == 2 && n.head? == some '-' && n.getLast? != some '-') || (decide (n.take 2 = ['-', '-']) && decide (2 < n.length) && !n.contains '=')

/-- all names are good, no two options share a name, no two a destination -/
structure Sound (p : Parser) : Prop where
  names : ∀ n ∈ p.flatMap Opt.names, goodName n = true
  nodup : (p.flatMap Opt.names).Nodup
  dests : (p.map Opt.dest).Nodup

instance (p : Parser) : Decidable (Sound p) :=
  decidable_of_iff ((∀ n ∈ p.flatMap Opt.names, goodName n = true) ∧ (p.flatMap Opt.names).Nodup ∧ (p.map Opt.dest).Nodup)
    ⟨fun h => ⟨h.1, h.2.1, h.2.2⟩, fun h => ⟨h.names, h.nodup, h.dests⟩⟩

/-- what a user writes -/
inductive Item where
  /-- `-a v` or `--ant v` -/
  | apart (o : Opt) (n v : Str)
  /-- `--ant=v` -/
  | equals (o : Opt) (n v : Str)
  /-- `-av` -/
  | joined (o : Opt) (c : Char) (v : Str)
  /-- `-q` or `--quiet` -/
  | flag (o : Opt) (n : Str)
  /-- a file name -/
  | arg (a : Str)

/-- as words -/
def Item.words : Item → List Str
  | .apart _ n v => [n, v]
  | .equals _ n v => [n ++ '=' :: v]
  | .joined _ c v => ['-' :: c :: v]
  | .flag _ n => [n]
  | .arg a => [a]

/-- a value that its type allows, and what is then stored -/
def Stores (num : Ty → Str → Bool) (o : Opt) (v : Str) (x : Val) : Prop :=
  (o.kind = .value .str ∧ x = .text v) ∨ ∃ ty, ty ≠ .str ∧ o.kind = .value ty ∧ num ty v = true ∧ x = .number ty v

/-- the item is meant for the parser; `x` is what it sets (`none` for an argument) -/
def Item.Means (num : Ty → Str → Bool) (p : Parser) : Item → Option (Str × Val) → Prop
  | .apart o n v, r => o ∈ p ∧ n ∈ o.names ∧ ∃ x, Stores num o v x ∧ r = some (o.dest, x)
  | .equals o n v, r => o ∈ p ∧ n ∈ o.names ∧ n.take 2 = ['-', '-'] ∧ ∃ x, Stores num o v x ∧ r = some (o.dest, x)
  | .joined o c v, r => o ∈ p ∧ ['-', c] ∈ o.names ∧ v ≠ [] ∧ ∃ x, Stores num o v x ∧ r = some (o.dest, x)
  | .flag o n, r => o ∈ p ∧ n ∈ o.names ∧ o.kind = .flag ∧ r = some (o.dest, .yes)
  | .arg a, r => (a = [] ∨ a = ['-'] ∨ a.head? ≠ some '-') ∧ r = none

/-- the arguments among the items -/
def argsOf (items : List Item) : List Str := items.filterMap fun
  | .arg a => some a
  | _ => none

/-- what is set under a name, the last time -/
def lastOf (d : Str) (rs : List (Option (Str × Val))) : Option Val :=
  ((rs.filterMap id).filter fun x => x.1 = d).getLast?.map Prod.snd

/-! ## Lemmas -/

theorem lookup_eq {p : Parser} (h : (p.flatMap Opt.names).Nodup) {o : Opt} (ho : o ∈ p) {n : Str} (hn : n ∈ o.names) :
    lookup p n = some o := by
  induction p with
  | nil => simp at ho
  | cons q p ih =>
    rw [List.flatMap_cons, List.nodup_append] at h
    unfold lookup
    rcases List.mem_cons.1 ho with rfl | ho'
    · simp [hn]
    · have hq : ¬ n ∈ q.names := fun hq => h.2.2 n hq n (List.mem_flatMap.2 ⟨o, ho', hn⟩) rfl
      have := ih h.2.1 ho'
      unfold lookup at this
      simpa [hq] using this

theorem store_ok {num : Ty → Str → Bool} {o : Opt} {v : Str} {x : Val} (h : Stores num o v x) (s : St) :
    store num o v s = .ok (put s o.dest x) := by
  rcases h with ⟨h1, h2⟩ | ⟨ty, h0, h1, h2, h3⟩
  · simp [store, h1, convert, h2]
  · cases ty with
    | str => exact absurd rfl h0
    | int => simp [store, h1, convert, h2, h3]
    | float => simp [store, h1, convert, h2, h3]

theorem stores_kind {num : Ty → Str → Bool} {o : Opt} {v : Str} {x : Val} (h : Stores num o v x) : ∃ ty, o.kind = .value ty := by
  rcases h with ⟨h, _⟩ | ⟨ty, _, h, _⟩
  · exact ⟨_, h⟩
  · exact ⟨_, h⟩

theorem splitEq_none (w : Str) (h : '=' ∉ w) : splitEq w = (w, none) := by
  induction w with
  | nil => rfl
  | cons c cs ih =>
    simp only [List.mem_cons, not_or] at h
    rw [splitEq, ih h.2]
    exact fun e => h.1 e.symm

theorem splitEq_some (w v : Str) (h : '=' ∉ w) : splitEq (w ++ '=' :: v) = (w, some v) := by
  induction w with
  | nil => rfl
  | cons c cs ih =>
    simp only [List.mem_cons, not_or] at h
    rw [List.cons_append, splitEq, ih h.2]
    exact fun e => h.1 e.symm

/-- what a long name looks like -/
theorem long_cases (n : Str) (h1 : n.take 2 = ['-', '-']) (h2 : 2 < n.length) : ∃ c cs, n = '-' :: '-' :: c :: cs := by
  obtain ⟨a, b, c, cs, rfl⟩ : ∃ a b c cs, n = a :: b :: c :: cs := by
    cases n with
    | nil => simp at h2
    | cons a n =>
      cases n with
      | nil => simp at h2
      | cons b n =>
        cases n with
        | nil => simp at h2
        | cons c cs => exact ⟨a, b, c, cs, rfl⟩
  simp at h1
  exact ⟨c, cs, by rw [h1.1, h1.2]⟩

theorem classify_short (c : Char) (hc : c ≠ '-') (cs : Str) : classify ('-' :: c :: cs) = .short (c :: cs) := by
  simp [classify, hc]

theorem classify_long (c : Char) (cs : Str) : classify ('-' :: '-' :: c :: cs) = .long := by
  simp [classify]

theorem short_word {num : Ty → Str → Bool} {p : Parser} (c : Char) (hc : c ≠ '-') (cs : Str) (rest : List Str) (s : St) :
    parse num p none (('-' :: c :: cs) :: rest) s = match shorts num p (c :: cs) s with
      | .ok (s, wait) => parse num p wait rest s
      | .error e => .error e := by
  rw [parse, classify_short c hc cs]

/-- what a name looks like -/
theorem good_cases (n : Str) (h : goodName n = true) :
    (∃ c, c ≠ '-' ∧ n = ['-', c]) ∨ ∃ c cs, n = '-' :: '-' :: c :: cs ∧ '=' ∉ n := by
  simp only [goodName, Bool.or_eq_true, Bool.and_eq_true, beq_iff_eq, bne_iff_ne, ne_eq, Bool.not_eq_true',
    List.contains_eq_mem, decide_eq_false_iff_not, decide_eq_true_eq] at h
  rcases h with ⟨⟨h1, h2⟩, h3⟩ | ⟨⟨h0, h1⟩, h2⟩
  · left
    obtain ⟨a, b, rfl⟩ : ∃ a b, n = [a, b] := by
      match n, h1 with
      | [a, b], _ => exact ⟨a, b, rfl⟩
    simp at h2 h3
    exact ⟨b, h3, by rw [h2]⟩
  · right
    obtain ⟨c, cs, rfl⟩ := long_cases n h0 h1
    exact ⟨c, cs, rfl, h2⟩

theorem long_word {num : Ty → Str → Bool} {p : Parser} (h : Sound p) {o : Opt} (ho : o ∈ p) {c : Char} {cs : Str}
    (hn : ('-' :: '-' :: c :: cs) ∈ o.names) (rest : List Str) (s : St) {e : Str} (w : Str)
    (hw : w = ('-' :: '-' :: c :: cs) ++ e) :
    parse num p none (w :: rest) s = match long num p w s with
      | .ok (s, wait) => parse num p wait rest s
      | .error e => .error e := by
  subst hw
  rw [parse, show ('-' :: '-' :: c :: cs) ++ e = '-' :: '-' :: c :: (cs ++ e) from rfl, classify_long]

theorem lastOf_some (d : Str) (x : Str × Val) (rs : List (Option (Str × Val))) :
    lastOf d (some x :: rs) = if x.1 = d then some ((lastOf d rs).getD x.2) else lastOf d rs := by
  unfold lastOf
  rw [show (some x :: rs).filterMap id = x :: rs.filterMap id from rfl]
  by_cases hd : x.1 = d
  · rw [List.filter_cons_of_pos (by simpa using hd), if_pos hd]
    generalize (rs.filterMap id).filter (fun x => decide (x.1 = d)) = L
    cases L with
    | nil => simp
    | cons y L => simp [List.getLast?_cons]
  · rw [List.filter_cons_of_neg (by simpa using hd), if_neg hd]

theorem put_vals (s : St) (d : Str) (v : Val) (k : Str) : (put s d v).vals k = if k = d then v else s.vals k := rfl

theorem step (num : Ty → Str → Bool) (p : Parser) (h : Sound p) (it : Item) (r : Option (Str × Val)) (hm : it.Means num p r)
    (rest : List Str) (s : St) :
    parse num p none (it.words ++ rest) s = parse num p none rest
      (match r with
        | some x => put s x.1 x.2
        | none => { s with args := s.args ++ argsOf [it] }) := by
  have good : ∀ o ∈ p, ∀ n ∈ o.names, goodName n = true := fun o ho n hn => h.names n (List.mem_flatMap.2 ⟨o, ho, hn⟩)
  cases it with
  | apart o n v =>
    obtain ⟨ho, hn, x, hs, rfl⟩ := hm
    obtain ⟨ty, hk⟩ := stores_kind hs
    have hl := lookup_eq h.nodup ho hn
    rcases good_cases n (good o ho n hn) with ⟨c, hc, rfl⟩ | ⟨c, cs, rfl, heq⟩
    · show parse num p none (['-', c] :: v :: rest) s = _
      have e : shorts num p [c] s = .ok (s, some o) := by simp [shorts, hl, hk]
      rw [short_word c hc, e]
      simp only
      rw [parse, store_ok hs]
    · show parse num p none (('-' :: '-' :: c :: cs) :: v :: rest) s = _
      rw [long_word h ho hn (v :: rest) s (e := []) _ (by simp)]
      have e : long num p ('-' :: '-' :: c :: cs) s = .ok (s, some o) := by
        unfold long
        rw [splitEq_none _ heq]
        simp [matchLong, hl, hk]
      rw [e]
      simp only
      rw [parse, store_ok hs]
  | equals o n v =>
    obtain ⟨ho, hn, hlong, x, hs, rfl⟩ := hm
    obtain ⟨ty, hk⟩ := stores_kind hs
    have hl := lookup_eq h.nodup ho hn
    rcases good_cases n (good o ho n hn) with ⟨c, hc, rfl⟩ | ⟨c, cs, rfl, heq⟩
    · exact absurd hlong (by simp [hc])
    · show parse num p none ((('-' :: '-' :: c :: cs) ++ '=' :: v) :: rest) s = _
      rw [long_word h ho hn rest s (e := '=' :: v) _ rfl]
      have e : long num p (('-' :: '-' :: c :: cs) ++ '=' :: v) s = .ok (put s o.dest x, none) := by
        unfold long
        rw [splitEq_some _ _ heq]
        simp [matchLong, hl, hk, store_ok hs, Except.map]
      rw [e]
  | joined o c v =>
    obtain ⟨ho, hn, hv, x, hs, rfl⟩ := hm
    obtain ⟨ty, hk⟩ := stores_kind hs
    have hl := lookup_eq h.nodup ho hn
    have hc : c ≠ '-' := by have := good o ho _ hn; simpa [goodName] using this
    show parse num p none (('-' :: c :: v) :: rest) s = _
    have e : shorts num p (c :: v) s = .ok (put s o.dest x, none) := by
      simp [shorts, hl, hk, hv, store_ok hs, Except.map]
    rw [short_word c hc, e]
  | flag o n =>
    obtain ⟨ho, hn, hk, rfl⟩ := hm
    have hl := lookup_eq h.nodup ho hn
    rcases good_cases n (good o ho n hn) with ⟨c, hc, rfl⟩ | ⟨c, cs, rfl, heq⟩
    · show parse num p none (['-', c] :: rest) s = _
      have e : shorts num p [c] s = .ok (put s o.dest .yes, none) := by simp [shorts, hl, hk]
      rw [short_word c hc, e]
    · show parse num p none (('-' :: '-' :: c :: cs) :: rest) s = _
      rw [long_word h ho hn rest s (e := []) _ (by simp)]
      have e : long num p ('-' :: '-' :: c :: cs) s = .ok (put s o.dest .yes, none) := by
        unfold long
        rw [splitEq_none _ heq]
        simp [matchLong, hl, hk]
      rw [e]
  | arg a =>
    obtain ⟨ha, rfl⟩ := hm
    show parse num p none (a :: rest) s = parse num p none rest { s with args := s.args ++ [a] }
    have hcl : classify a = .arg := by
      rcases ha with rfl | rfl | ha
      · rfl
      · rfl
      · cases a with
        | nil => rfl
        | cons c cs =>
          simp at ha
          simp [classify, ha]
    rw [parse, hcl]

/-! ## Properties -/

/-- **C145**: a command line of options in any spelling and of arguments between them is read without error; every
destination holds what was given last, or else what it held before, and the arguments are kept in order -/
theorem c145_line (num : Ty → Str → Bool) (p : Parser) (h : Sound p) (items : List Item) (rs : List (Option (Str × Val)))
    (hm : List.Forall₂ (Item.Means num p) items rs) (s : St) :
    ∃ s', parse num p none (items.flatMap Item.words) s = .ok s' ∧ s'.args = s.args ++ argsOf items ∧
      ∀ d, s'.vals d = (lastOf d rs).getD (s.vals d) := by
  induction hm generalizing s with
  | nil => exact ⟨s, by simp [parse], by simp [argsOf], by simp [lastOf]⟩
  | cons h1 h2 ih =>
    rename_i it r items rs
    rw [List.flatMap_cons, step num p h it r h1]
    cases r with
    | none =>
      obtain ⟨s', e1, e2, e3⟩ := ih { s with args := s.args ++ argsOf [it] }
      refine ⟨s', e1, ?_, ?_⟩
      · rw [e2]
        cases it <;> simp [argsOf, List.filterMap_cons]
      · intro d
        rw [e3 d]
        simp [lastOf]
    | some x =>
      obtain ⟨s', e1, e2, e3⟩ := ih (put s x.1 x.2)
      refine ⟨s', e1, ?_, ?_⟩
      · rw [e2]
        cases it with
        | arg a => obtain ⟨_, h⟩ := h1; simp at h
        | _ => simp [argsOf, put]
      · intro d
        rw [e3 d, put_vals]
        rw [lastOf_some]
        by_cases hd : x.1 = d
        · rw [if_pos hd, if_pos hd.symm]
          rfl
        · rw [if_neg hd, if_neg fun e => hd e.symm]

/-- **C145**: what `add_standard_options` is asked for, and nothing else, can be given on the command line: for every choice
it raises nothing, no names and no destinations collide, and without options the destinations hold the documented defaults -/
theorem c145_standard : ∀ (ant pol chan cal src prms dec cmap max drng : Bool),
    ∃ p, addStandard ⟨ant, pol, chan, cal, src, prms, dec, cmap, max, drng⟩ newParser = some p ∧ Sound p ∧
      p.flatMap Opt.names = (["-h", "--help"] ++ (if ant then ["-a", "--ant"] else []) ++ (if pol then ["-p", "--pol"] else []) ++
        (if chan then ["-c", "--chan"] else []) ++ (if cal then ["-C", "--cal"] else []) ++
        (if src then ["-s", "--src", "--cat"] else []) ++ (if prms then ["-P", "--prms"] else []) ++
        (if dec then ["-x", "--decimate", "--dphs"] else []) ++ (if cmap then ["--cmap"] else []) ++
        (if max then ["--max"] else []) ++ (if drng then ["--drng"] else [])).map String.toList ∧
      (ant = true → (start p).vals "ant".toList = .text "cross".toList) ∧ (pol = true → (start p).vals "pol".toList = .int (-1)) ∧
      (chan = true → (start p).vals "chan".toList = .text "all".toList) ∧
      (src = true → (start p).vals "cat".toList = .text "helm,misc".toList ∧ (start p).vals "src".toList = .none) ∧
      (dec = true → (start p).vals "decimate".toList = .int 1 ∧ (start p).vals "decphs".toList = .int 0) ∧
      (cmap = true → (start p).vals "cmap".toList = .text "jet".toList) := by
  intro ant pol chan cal src prms dec cmap max drng
  refine ⟨(addStandard ⟨ant, pol, chan, cal, src, prms, dec, cmap, max, drng⟩ newParser).getD [], ?_⟩
  revert ant pol chan cal src prms dec cmap max drng
  decide +kernel

/-- **C145**: every script's declarations go through, and no names and no destinations collide, so that `c145_line` holds for
its command line -/
theorem c145_scripts : ∀ s ∈ scripts, ∃ p, build s = some p ∧ Sound p := by
  have h : ∀ s ∈ scripts, (match build s with
      | some p => decide (Sound p)
      | none => false) = true := by decide +kernel
  intro s hs
  have := h s hs
  cases hb : build s with
  | none => rw [hb] at this; exact absurd this (by simp)
  | some p => rw [hb] at this; exact ⟨p, rfl, by simpa using this⟩

/-- **C145**: every script but two reads only what it declared -/
theorem c145_reads_partial : ∀ s ∈ scripts, s.name ≠ "pull_ants.py" → s.name ≠ "inspect_phs_close.py" →
    ∃ p, build s = some p ∧ ∀ r ∈ s.reads, ∃ o ∈ p, o.dest = r.toList := by
  have h : ∀ s ∈ scripts, s.name ≠ "pull_ants.py" → s.name ≠ "inspect_phs_close.py" → (match build s with
      | some p => s.reads.all fun r => p.any fun o => o.dest == r.toList
      | none => false) = true := by decide +kernel
  intro s hs h1 h2
  have := h s hs h1 h2
  cases hb : build s with
  | none => rw [hb] at this; exact absurd this (by simp)
  | some p =>
    rw [hb] at this
    refine ⟨p, rfl, fun r hr => ?_⟩
    have := List.all_eq_true.1 this r hr
    simpa using this

/-- **C145**: pull_ants.py reads `opts.refant` and inspect_phs_close.py `opts.fixdelay`, which none of their options sets -/
theorem c145_reads_violated :
    (sPullAnts ∈ scripts ∧ "refant" ∈ sPullAnts.reads ∧ ∀ p, build sPullAnts = some p → ∀ o ∈ p, o.dest ≠ "refant".toList) ∧
    (sInspectPhsClose ∈ scripts ∧ "fixdelay" ∈ sInspectPhsClose.reads ∧
      ∀ p, build sInspectPhsClose = some p → ∀ o ∈ p, o.dest ≠ "fixdelay".toList) := by
  have h1 : (match build sPullAnts with
      | some p => p.all fun o => o.dest != "refant".toList
      | none => true) = true := by decide +kernel
  have h2 : (match build sInspectPhsClose with
      | some p => p.all fun o => o.dest != "fixdelay".toList
      | none => true) = true := by decide +kernel
  refine ⟨⟨by simp [scripts], by decide +kernel, fun p hp o ho => ?_⟩, by simp [scripts], by decide +kernel, fun p hp o ho => ?_⟩
  · rw [hp] at h1
    simpa using List.all_eq_true.1 h1 o ho
  · rw [hp] at h2
    simpa using List.all_eq_true.1 h2 o ho

/-- **C145**: asking twice for the same standard options raises, whatever they are -/
theorem c145_twice : ∀ (ant pol chan cal src prms dec cmap max drng : Bool),
    ((addStandard ⟨ant, pol, chan, cal, src, prms, dec, cmap, max, drng⟩ newParser).bind
      (addStandard ⟨ant, pol, chan, cal, src, prms, dec, cmap, max, drng⟩)).isSome =
    !(ant || pol || chan || cal || src || prms || dec || cmap || max || drng) := by
  decide +kernel

/-- **C145**: a long name may be cut short as long as it is the only one that begins so; then it means the same -/
theorem c145_abbreviation (num : Ty → Str → Bool) (p : Parser) (h : Sound p) (o : Opt) (ho : o ∈ p) (n m : Str) (hm : m ∈ o.names)
    (hl : m.take 2 = ['-', '-']) (hp : n <+: m) (hn : n ∉ p.flatMap Opt.names) (h3 : 3 ≤ n.length)
    (huniq : ∀ m' ∈ p.flatMap Opt.names, n <+: m' → m' = m) (rest : List Str) (s : St) (e : Str)
    (he : e = [] ∨ ∃ v, e = '=' :: v) :
    parse num p none ((n ++ e) :: rest) s = parse num p none ((m ++ e) :: rest) s := by
  have hgm : goodName m = true := h.names m (List.mem_flatMap.2 ⟨o, ho, hm⟩)
  rcases good_cases m hgm with ⟨c, hc, rfl⟩ | ⟨c, cs, rfl, heq⟩
  · exact absurd hl (by simp [hc])
  have heqn : '=' ∉ n := fun hh => heq (hp.subset hh)
  have hlm := lookup_eq h.nodup ho hm
  have hln : lookup p n = none := by
    unfold lookup
    rw [List.find?_eq_none]
    intro q hq hh
    exact hn (List.mem_flatMap.2 ⟨q, hq, by simpa using hh⟩)
  have hf : ((p.flatMap Opt.names).filter fun m' => isLong m' && n.isPrefixOf m') = ['-' :: '-' :: c :: cs] := by
    have hmem : ('-' :: '-' :: c :: cs) ∈ p.flatMap Opt.names := List.mem_flatMap.2 ⟨o, ho, hm⟩
    have e1 : ((p.flatMap Opt.names).filter fun m' => isLong m' && n.isPrefixOf m') =
        (p.flatMap Opt.names).filter fun m' => m' = '-' :: '-' :: c :: cs := by
      apply List.filter_congr
      intro m' hm'
      by_cases hh : m' = '-' :: '-' :: c :: cs
      · subst hh
        simp [isLong, hp]
      · have : ¬ (isLong m' = true ∧ n <+: m') := fun hx => hh (huniq m' hm' hx.2)
        simp only [hh, decide_false, Bool.and_eq_false_iff]
        by_cases hx : isLong m' = true
        · right
          have hy : ¬ n <+: m' := fun hy => this ⟨hx, hy⟩
          cases hb : List.isPrefixOf n m' with
          | false => rfl
          | true => exact absurd (List.isPrefixOf_iff_prefix.1 hb) hy
        · left; simpa using hx
    rw [e1]
    have := List.Nodup.filter (fun m' => decide (m' = '-' :: '-' :: c :: cs)) h.nodup
    have hall : ∀ x ∈ (p.flatMap Opt.names).filter fun m' => decide (m' = '-' :: '-' :: c :: cs), x = '-' :: '-' :: c :: cs := by
      intro x hx
      simpa using (List.mem_filter.1 hx).2
    have hin : ('-' :: '-' :: c :: cs) ∈ (p.flatMap Opt.names).filter fun m' => decide (m' = '-' :: '-' :: c :: cs) :=
      List.mem_filter.2 ⟨hmem, by simp⟩
    generalize (p.flatMap Opt.names).filter (fun m' => decide (m' = '-' :: '-' :: c :: cs)) = L at *
    match L, this, hall, hin with
    | [x], _, hall, _ => rw [hall x (by simp)]
    | x :: y :: L, hnd, hall, _ =>
      rw [hall x (by simp), hall y (by simp)] at hnd
      simp at hnd
  have hmn : matchLong p n = some o := by
    unfold matchLong
    rw [hln, hf]
    exact hlm
  have hmm : matchLong p ('-' :: '-' :: c :: cs) = some o := by
    unfold matchLong
    rw [hlm]
  obtain ⟨d, ds, rfl⟩ : ∃ d ds, n = '-' :: '-' :: d :: ds := by
    obtain ⟨t, ht⟩ := hp
    match n, h3, ht with
    | a :: b :: d :: ds, _, ht =>
      simp only [List.cons_append, List.cons.injEq] at ht
      exact ⟨d, ds, by rw [ht.1, ht.2.1]⟩
  have elong : long num p (('-' :: '-' :: d :: ds) ++ e) s = long num p (('-' :: '-' :: c :: cs) ++ e) s := by
    unfold long
    rcases he with rfl | ⟨v, rfl⟩
    · rw [List.append_nil, List.append_nil, splitEq_none _ heqn, splitEq_none _ heq, hmn, hmm]
    · rw [splitEq_some _ _ heqn, splitEq_some _ _ heq, hmn, hmm]
  rw [long_word h ho hm rest s (e := e) _ rfl]
  have : parse num p none ((('-' :: '-' :: d :: ds) ++ e) :: rest) s =
      match long num p (('-' :: '-' :: d :: ds) ++ e) s with
      | .ok (s, wait) => parse num p wait rest s
      | .error e => .error e := by
    rw [parse, show ('-' :: '-' :: d :: ds) ++ e = '-' :: '-' :: d :: (ds ++ e) from rfl, classify_long]
  rw [this, elong]

/-- **C145**: after `--` every word is an argument -/
theorem c145_dashes (num : Ty → Str → Bool) (p : Parser) (rest : List Str) (s : St) :
    parse num p none (['-', '-'] :: rest) s = .ok { s with args := s.args ++ rest } := by
  rw [parse, show classify ['-', '-'] = .dashes by simp [classify]]

/-- **C145**: a number that is none, an option that does not exist or one without its value ends the script -/
theorem c145_refused (num : Ty → Str → Bool) (p : Parser) (h : Sound p) (o : Opt) (ho : o ∈ p) (c : Char) (hn : ['-', c] ∈ o.names)
    (ty : Ty) (hk : o.kind = .value ty) (rest : List Str) (s : St) :
    parse num p none [['-', c]] s = .error .usage ∧
    (∀ v, ty ≠ .str → num ty v = false → parse num p none (['-', c] :: v :: rest) s = .error .usage) ∧
    ∀ c', c' ≠ '-' → ['-', c'] ∉ p.flatMap Opt.names → parse num p none (['-', c'] :: rest) s = .error .usage := by
  have hl := lookup_eq h.nodup ho hn
  have hc : c ≠ '-' := by
    have := h.names _ (List.mem_flatMap.2 ⟨o, ho, hn⟩)
    simpa [goodName] using this
  have e : shorts num p [c] s = .ok (s, some o) := by simp [shorts, hl, hk]
  have e1 : ∀ rest, parse num p none (['-', c] :: rest) s = parse num p (some o) rest s := by
    intro rest
    rw [short_word c hc, e]
  refine ⟨by rw [e1, parse], ?_, ?_⟩
  · intro v hty hv
    rw [e1, parse]
    have : store num o v s = .error .usage := by
      cases ty with
      | str => exact absurd rfl hty
      | int => simp [store, hk, convert, hv]
      | float => simp [store, hk, convert, hv]
    rw [this]
  · intro c' hc' hnot
    have hl' : lookup p ['-', c'] = none := by
      unfold lookup
      rw [List.find?_eq_none]
      intro q hq hh
      exact hnot (List.mem_flatMap.2 ⟨q, hq, by simpa using hh⟩)
    have e' : shorts num p [c'] s = .error .usage := by simp [shorts, hl']
    rw [short_word c' hc', e']

/-! ## Cases that meet the hypotheses -/

/-- two options and a flag -/
def demo : Parser := [helpOpt, val ["-a", "--ant"] "ant" .str (.text "cross".toList), val ["-x", "--decimate"] "decimate" .int (.int 1),
  flg ["-q", "--quiet"] "quiet"]

example : Sound demo := by decide +kernel
example : (Item.equals demo[1] "--ant".toList "0_1".toList).Means (fun _ _ => true) demo (some ("ant".toList, .text "0_1".toList)) := by
  refine ⟨by decide +kernel, by decide +kernel, rfl, .text "0_1".toList, ?_, by decide +kernel⟩
  left
  exact ⟨by decide +kernel, rfl⟩
example : (match parse (fun _ _ => true) demo none (["-qx", "2", "f.uv", "--an=1", "-a0_1", "g.uv"].map String.toList) (start demo) with
    | .ok s => (s.vals "ant".toList, s.vals "quiet".toList, s.vals "decimate".toList, s.args)
    | .error _ => (.none, .none, .none, [])) =
    (.text "0_1".toList, .yes, .number .int "2".toList, ["f.uv".toList, "g.uv".toList]) := by decide +kernel

end Verif.Options
