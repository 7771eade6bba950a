import Verif.Driver.Lemmas
/-!
# The driver that runs the compiler (C111)

`OMCompile` runs the compiler in a process of its own.  It is not told what the compiler wrote: it
works out the name of the file and the tag of the symbols from the flags it passed.  A session then
loads that file and looks for symbols with that tag.  (`Verif.Driver.compile` is the driver,
`Verif.Driver.compiler` what the compiler does with its arguments, `Verif.Session` the session.)
-/
namespace Verif.Props
open Verif.Driver
open Verif.Session (Str lower)

/-- Flags that are written in quotation marks, separated by spaces, are read back as they were. -/
theorem C111_parse (fs : List Str) (hf : ∀ f ∈ fs, f ≠ []) : parseFlags (written fs) = fs :=
  parseFlags_written fs hf

example : parseFlags (lit "-O3  \"-o=my model\" '--x' a\\ b") =
    [lit "-O3", lit "-o=my model", lit "--x", lit "a b"] := by decide +kernel

/-- What the driver reports is what the compiler did: for every list of flags of the usual forms,
every model and every directory for the output, the compiler is run with these flags, the reported
file is the file the compiler wrote, and, for a library, a session that is given the reported file
and tag looks for the symbols that the library has.

Partial: not for the flags and names of the theorems below. -/
theorem C111_report_partial (takes : Str → Bool) (htk : TakesOk takes) (fs : List Flag)
    (hfs : ∀ f ∈ fs, f.Ok takes) (m cwd dir : Str) (hm0 : m ≠ []) (hm : m.head? ≠ some '-')
    (hc0 : cwd ≠ []) (hc : cwd.getLast? ≠ some '/') (hdir : dir.head? ≠ some '-')
    (hstem : dir ≠ [] → NamesFile (Session.dropExt (Session.fileName m)) ∧
      Session.dropExt (Session.fileName m) ≠ ['-'])
    (w : Written)
    (hw : compiler takes (compile cwd m (written (args fs)) dir).args = some w) :
    let r := compile cwd m (written (args fs)) dir
    r.args = args (placed dir (Session.dropExt (Session.fileName m)) fs) ++ [m] ∧
      r.output = resolve cwd w.file ∧
      (w.target = .lib →
        Session.lowDash (if r.tag = [] then Session.stemOf r.output else r.tag) = w.pfx) := by
  have hslash : '/' ∉ Session.dropExt (Session.fileName m) := fun h =>
    (dir_fileName m).choose_spec.2.2 (dropExt_mem h)
  have hparse := parseFlags_written (args fs) (args_ne takes fs hfs)
  have hin : getInputFilename m (args fs) = m := by simp [getInputFilename, hm0]
  have hflags : (if dir ≠ [] then applyOutputPath (args fs) dir m else args fs) =
      args (placed dir (Session.dropExt (Session.fileName m)) fs) := by
    by_cases hd : dir = []
    · simp [hd, placed]
    · rw [if_pos hd, applyOutputPath_eq takes dir m fs hfs hslash]
  have hok : ∀ f ∈ placed dir (Session.dropExt (Session.fileName m)) fs, f.Ok takes := by
    by_cases hd : dir = []
    · simpa [hd, placed] using hfs
    · exact placed_ok takes dir _ hdir (hstem hd).1 hslash (hstem hd).2 fs hfs
  revert hok hflags
  generalize placed dir (Session.dropExt (Session.fileName m)) fs = gs
  intro hflags hok
  have hargs : (compile cwd m (written (args fs)) dir).args = args gs ++ [m] := by
    simp only [compile, hparse, hin, hm0, ne_eq, not_false_eq_true, if_true]
    rw [← hflags]
  have hout : (compile cwd m (written (args fs)) dir).output =
      resolve cwd (getTargetFilename (baseOf gs m)
        (((gs.filterMap Flag.emitVal).head?).getD .lib)) := by
    simp only [compile, hparse, hin]
    rw [hflags, getOutputFilename_eq takes gs hok m hm0,
      absolutePath_eq cwd _ hc0 hc (getTargetFilename_ne _ _)]
  have htag : (compile cwd m (written (args fs)) dir).tag =
      ((gs.filterMap Flag.tagVal).head?).getD [] := by
    simp only [compile, hparse, hin]
    rw [hflags, tag_eq takes gs hok]
  rw [hargs] at hw
  obtain ⟨h1, h2, -, attr, h3, h4⟩ := compiler_eq takes htk gs hok m hm hw
  refine ⟨hargs, by rw [hout, h1], fun hlib => ?_⟩
  rw [htag, hout, h4]
  rw [h2] at hlib
  rw [hlib]
  obtain ⟨d, hd1, hd2⟩ : ∃ d, resolve cwd (getTargetFilename (baseOf gs m) .lib) =
      d ++ baseOf gs m ++ lit ".so" ∧ (d = [] ∨ d.getLast? = some '/') := by
    unfold resolve
    split
    · exact ⟨[], rfl, .inl rfl⟩
    · exact ⟨cwd ++ ['/'], by simp [getTargetFilename], .inr (by simp)⟩
  rw [hd1]
  exact suffix_agrees _ _ _ _ h3 hd2

/-- Options with a value. -/
def takesExample : Str → Bool := fun n => n = lit "o" ∨ n = lit "tag" ∨ n = lit "mcpu"

theorem takesExample_ok : TakesOk takesExample := by
  refine ⟨by decide +kernel, by decide +kernel, ?_⟩
  show ∀ n ∈ emitNames, takesExample n = false
  decide +kernel

/-- Flags of all forms. -/
def flagsExample : List Flag :=
  [.other (lit "-O3"), .otherVal (lit "--mcpu") (lit "z16"), .outEq (lit "My.Net"),
    .emit true (lit "EmitLib"), .tag true (lit "v1.0")]

example : (∃ w, compiler takesExample
      (compile (lit "/home") (lit "nets/m.onnx") (written (args flagsExample)) (lit "out")).args =
        some w ∧ w.file = lit "out/My.Net.so" ∧ w.pfx = lit "_v1.0") ∧
    (compile (lit "/home") (lit "nets/m.onnx") (written (args flagsExample)) (lit "out")).output =
      lit "/home/out/My.Net.so" := by
  refine ⟨⟨⟨lit "out/My.Net.so", lit "out/My.Net.constants.bin", lit "_v1.0", .lib⟩, ?_, rfl, rfl⟩,
    ?_⟩ <;> decide +kernel

example : ∀ f ∈ flagsExample, f.Ok takesExample := by
  have h1 : Other (lit "-O3") := by
    refine ⟨?_, ?_, ?_, ?_, ?_, ?_, ?_, ?_, ?_⟩ <;> decide +kernel
  have h2 : Other (lit "--mcpu") := by
    refine ⟨?_, ?_, ?_, ?_, ?_, ?_, ?_, ?_, ?_⟩ <;> decide +kernel
  intro f hf
  simp only [flagsExample, List.mem_cons, List.not_mem_nil, or_false] at hf
  rcases hf with rfl | rfl | rfl | rfl | rfl
  · exact ⟨h1, by decide +kernel⟩
  · exact ⟨h2, by decide +kernel, by decide +kernel, by decide +kernel, by decide +kernel⟩
  · exact ⟨by decide +kernel, 'N', by decide +kernel, by decide⟩
  · show lit "EmitLib" ∈ emitNames
    decide +kernel
  · trivial

/-- Without a name in the flags the library is next to the model, named after it. -/
example : (compile (lit "/home") (lit "nets/m.onnx") (lit "-O3 --tag=none") []).output =
      lit "/home/nets/m.so" := by decide +kernel

/-- Any flag that begins with `-o` is taken for the name of the output: with
`-onnx-op-stats TXT` the reported file is `TXT.so`, the file written `m.so`. -/
theorem C111_prefix_false :
    let takes : Str → Bool := fun n => n = lit "onnx-op-stats" || takesExample n
    let r := compile (lit "/home") (lit "m.onnx") (lit "-onnx-op-stats TXT") []
    ∃ w, compiler takes r.args = some w ∧ w.file = lit "m.so" ∧ r.output = lit "/home/TXT.so" := by
  refine ⟨⟨lit "m.so", lit "m.constants.bin", lit "_m", .lib⟩, ?_, rfl, ?_⟩ <;> decide +kernel

/-- With two dashes, `--o`, the compiler takes the name and the driver does not. -/
theorem C111_dashes_false :
    let r := compile (lit "/home") (lit "m.onnx") (lit "--o=net") []
    ∃ w, compiler takesExample r.args = some w ∧ w.file = lit "net.so" ∧
      r.output = lit "/home/m.so" := by
  refine ⟨⟨lit "net.so", lit "net.constants.bin", lit "_net", .lib⟩, ?_, rfl, ?_⟩ <;>
    decide +kernel

/-- A name that is a directory is ignored by the compiler and not by the driver. -/
theorem C111_directory_false :
    let r := compile (lit "/home") (lit "m.onnx") (lit "-o=out/") []
    ∃ w, compiler takesExample r.args = some w ∧ w.file = lit "m.so" ∧
      r.output = lit "/home/out/.so" := by
  refine ⟨⟨lit "m.so", lit "m.constants.bin", lit "_m", .lib⟩, ?_, rfl, ?_⟩ <;> decide +kernel

/-- A tag given as an argument of its own, which the compiler accepts, is not seen by the driver:
a session that is given what the driver reports does not find the symbols. -/
theorem C111_tag_false :
    let r := compile (lit "/home") (lit "m.onnx") (lit "--tag v1") []
    ∃ w, compiler takesExample r.args = some w ∧ r.output = resolve (lit "/home") w.file ∧
      w.target = .lib ∧ w.pfx = lit "_v1" ∧
      Session.lowDash (if r.tag = [] then Session.stemOf r.output else r.tag) = lit "_m" := by
  refine ⟨⟨lit "m.so", lit "m.constants.bin", lit "_v1", .lib⟩, ?_, ?_, rfl, rfl, ?_⟩ <;>
    decide +kernel

/-- The reported file of constants is always in the current directory; the compiler writes it
next to the library. -/
theorem C111_constants_false :
    let r := compile (lit "/home") (lit "nets/m.onnx") [] []
    ∃ w, compiler takesExample r.args = some w ∧
      resolve (lit "/home") w.constants = lit "/home/nets/m.constants.bin" ∧
      r.constants = lit "/home/m.constants.bin" := by
  refine ⟨⟨lit "nets/m.so", lit "nets/m.constants.bin", lit "_m", .lib⟩, ?_, ?_, ?_⟩ <;>
    decide +kernel

/-- An empty flag is lost. -/
theorem C111_empty_false : parseFlags (written [lit "--tag", []]) = [lit "--tag"] := by
  decide +kernel

/-- In a container the compiler is run through a shell.  If no flag has a character with a meaning
for the shell, the shell passes the flags on as they are. -/
theorem C111_container_partial (compilerPath : Str) (flags : List Str) (input : Str)
    (hc : ∀ x ∈ compilerPath, Safe x) (hf : ∀ f ∈ flags, ∀ x ∈ f, Safe x)
    (hi : ∀ x ∈ input, Safe x) :
    shWords (containerCmd compilerPath flags input) = compilerPath :: flags ++ [input] :=
  containerCmd_words compilerPath flags input hc hf hi

example : shWords (containerCmd (lit "onnx-mlir") [lit "-O3", lit "-shapeInformation=\"0:1x2\""]
      (lit "/d/m.onnx")) =
    [lit "onnx-mlir", lit "-O3", lit "-shapeInformation=\"0:1x2\"", lit "/d/m.onnx"] := by
  decide +kernel

/-- A flag with a space, which is one argument when the compiler runs locally, becomes two. -/
theorem C111_container_false :
    parseFlags (lit "\"-o=my net\"") = [lit "-o=my net"] ∧
      shWords (containerCmd (lit "onnx-mlir") [lit "-o=my net"] (lit "/d/m.onnx")) =
        [lit "onnx-mlir", lit "-o=my", lit "net", lit "/d/m.onnx"] := by
  constructor <;> decide +kernel

end Verif.Props
