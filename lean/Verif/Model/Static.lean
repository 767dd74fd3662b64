import Verif.Model.App

/-
Serving files: the asynchronous part of src/router/response.rs `file`, and the static file handlers of
src/router.rs.

The file system is part of the world; how it is read (`async_std::fs`) is a parameter.  A read is one
atomic step.
-/
namespace Obsidian
variable {U : Univ} {σ : Type}

/-- Reading a file: the bytes at a path, or the text of the error. -/
abbrev ReadFile (σ : Type) := σ → Str → Except Str Bytes

/-- Decoding UTF-8 (`String::from_utf8`). -/
def fromUtf8 (b : Bytes) : Option Str := b.toByteArray.utf8Decode?.map Array.toList

/-- The error text of `read_to_string` for bytes that are not UTF-8. -/
def notUtf8 : Str := "stream did not contain valid UTF-8".toList

/-- `async_std::fs::read_to_string` (response.rs:133). -/
def readToString (fs : ReadFile σ) (w : σ) (path : Str) : Except Str Str :=
  match fs w path with
  | .ok bytes =>
    match fromUtf8 bytes with
    | some content => .ok content
    | none => .error notUtf8
  | .error err => .error err

/-- response.rs:132-141 `Response::file`; a failure is printed (`dbg!`). -/
def Response.fileAct (fs : ReadFile σ) (r : Response) (path : Str) : Act σ Response :=
  .step id fun w =>
    match readToString fs w path with
    | .ok content => .ret (r.file (.ok content))
    | .error err => .print (.error err) (.ret (r.file (.error err)))

/-- context.rs:288-290 `Context::build_file`. -/
def Context.buildFileAct (fs : ReadFile σ) (c : Context U) (path : Str) : Act σ (ResponseBuilder U) :=
  (Response.ok.fileAct fs path).bind fun r => .ret ⟨c, r⟩

/-- router.rs:115-145 `Router::static_virtual_file_handler`. -/
def staticVirtualFileHandler (fs : ReadFile σ) (virtualPath dirPath : Str) : Handler U σ :=
  let dir := segs dirPath
  let virtualPathLen := (segs virtualPath).length
  fun ctx =>
    let relativePath := (segs ctx.request.path).drop virtualPathLen
    (Response.ok.fileAct fs (joinSlash (dir ++ relativePath))).bind fun r =>
      .ret (ctx.build (.response r)).ok

/-- router.rs:147-158 `Router::static_dir_file_handler`. -/
def staticDirFileHandler (fs : ReadFile σ) : Handler U σ := fun ctx =>
  let relativePath := segs ctx.request.path
  (Response.ok.fileAct fs (joinSlash relativePath)).bind fun r => .ret (ctx.build (.response r)).ok

/-- router.rs:82-90 `Router::use_static_to` (app.rs:113-115): the call to `get` it makes. -/
def Reg.useStaticTo {M : Type} (fs : ReadFile σ) (virtualPath dirPath : Str) : Reg M (Handler U σ) :=
  .get (virtualPath ++ "/*".toList) (staticVirtualFileHandler fs virtualPath dirPath)

/-- router.rs:93-98 `Router::use_static` (app.rs:118-120): the call to `get` it makes. -/
def Reg.useStatic {M : Type} (fs : ReadFile σ) (dirPath : Str) : Reg M (Handler U σ) :=
  .get (dirPath ++ "/*".toList) (staticDirFileHandler fs)

end Obsidian
