import Verif.Model.CliRun

/-! # Command line: the arguments (`/repo/minty-cli/src/main.rs:118-153`) -/

namespace Mty.Cli

/-- What `clap` makes of the arguments (`/repo/minty-cli/src/main.rs:125-131`; `clap` itself is not modelled): the parsed arguments, or
an error (its text, and whether it is one, since asking for help or the version is an `Err` too) together with the result of parsing the
same arguments as `FallbackArgs` (`none`: an error). -/
inductive ClapResult where
  | ok (a : ConvertArgs) (mode : ErrorMode)
  | error (text : Str) (usage : Bool) (fallback : Option ErrorMode)

/-- `main` (`/repo/minty-cli/src/main.rs:140-153`) with `parse_args` (118-138): what happens to the files, what is written to
stderr, and whether the exit status is success. `clap::Error::exit` prints the text (to stderr if it is a usage error) and ends
the program. -/
inductive ProgramRun (parse : Parser) (fmt : Fmt) (fs : Fs) : ClapResult → List (Nat × Ev) → Str → Bool → Prop
  | command {a : ConvertArgs} {mode : ErrorMode} {trace : List (Nat × Ev)} {stderr : Str} {exit : Bool} :
      MainRun parse fmt fs a mode trace stderr exit → ProgramRun parse fmt fs (.ok a mode) trace stderr exit
  | exit {text : Str} {usage : Bool} {fallback : Option ErrorMode} : fallback.getD .default = .default →
      ProgramRun parse fmt fs (.error text usage fallback) [] (if usage then text else []) (!usage)
  | fallback {text : Str} {usage : Bool} {mode : ErrorMode} : mode ≠ .default →
      ProgramRun parse fmt fs (.error text usage (some mode)) [] (reporterRun fmt [.mode mode, .close]) false

end Mty.Cli
