import Verif.Model.Whole
/-!
# Model of the command line (src/main.rs:37-57)

`Args` has one positional argument with the default `""`, and `clap` adds `-h` and `--help`; there is no version flag and no subcommand. The crate is
not in /repo; the definitions follow clap 4.5 (clap_builder, src/parser/parser.rs, `get_matches_with`, `parse_long_arg`, `parse_short_arg`), and are part of what is
trusted. `Args::parse` ends the process if there is nothing to run: with status 0 after `--help`, with status 2 after a message about a mistake. The arguments are
those after the name of the program; on Unix they are byte strings.
-/

namespace Httpd

/-- What clap makes of a command line. -/
inductive CmdLine
  /-- the program runs, with this value of `Args::file` -/
  | file (f : Str)
  /-- the help text -/
  | help
  /-- a message about a mistake -/
  | mistake
deriving DecidableEq

/-- clap `get_matches_with`. `trailing`: after `--` everything is positional. `got`: the value of the positional argument, if it came already. An argument that
begins with two hyphens is a long flag, one that begins with one hyphen and has more after it is a row of short ones, of which the first decides since `-h` ends the
parsing. A value that is not UTF-8 is refused when it is parsed as a `String`, before anything else happens. -/
def parseArgs : Bool → Option Str → List Bytes → CmdLine
  | _, got, [] => .file (got.getD [])
  | trailing, got, a :: rest =>
    if !trailing && a = b!"--" then parseArgs true got rest
    else if !trailing && (b!"--").isPrefixOf a then
      if a = b!"--help" then .help else .mistake
    else if !trailing && (b!"-").isPrefixOf a && a != b!"-" then
      if (b!"-h").isPrefixOf a then .help else .mistake
    else
      match got with
      | some _ => .mistake
      | none =>
        match decodeUtf8 a with
        | none => .mistake
        | some f => parseArgs trailing (some f) rest

/-- src/main.rs:48-57: a debug build parses a fixed command line instead of its own. -/
def commandLine (p : Profile) (argv : List Bytes) : CmdLine :=
  match p with
  | .debug => parseArgs false none [b!"./httpd.toml"]
  | .release => parseArgs false none argv

/-- What comes of the process. -/
inductive Invoked (K : Type)
  | ran (r : Ran K)
  /-- clap ended it with this status; nothing of src/main.rs ran after line 57 -/
  | ended (status : Nat)

/-- src/main.rs:47-65, 270-290: the process, with these arguments. -/
def Machine.invoke {C K : Type} (m : Machine) (p : Profile) (argv : List Bytes) (x : ProcEnv C K) (pid : Str) (pr : Prints) : Invoked K :=
  match commandLine p argv with
  | .file f => .ran (m.main p f x pid pr)
  | .help => .ended 0
  | .mistake => .ended 2

end Httpd
