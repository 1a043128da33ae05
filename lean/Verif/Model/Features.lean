/-
Model of the Cargo features: the manifests (Cargo.toml, */Cargo.toml), and which items of the crates
(src/lib.rs, */src/*.rs) are compiled under which features, which names their code and the macros mention, and how
Cargo and rustc make something of that.

Not modelled: versions, dev-dependencies, the `_tests` features (they gate test files only), `cfg(doc)`, and the
dependencies on other projects except the one that is optional (`with_builtin_macros`) and `askama_escape`. Items that
are private to a file and only mentioned there are left out.
-/

namespace Stylish.Cargo

/-- The packages (Cargo.toml and */Cargo.toml, `[package]`). The proc macro runs on the compiling machine, and Cargo builds the packages it
depends on for that separately: `styleHost` is `stylish-style` as built for `stylish-macros`. -/
inductive Crate where
  | style | styleHost | macros | withBuiltin | askama | core | ansi | html | plain | stylish
  deriving DecidableEq, Repr

/-- All of them. (Cargo.toml and */Cargo.toml) -/
def Crate.all : List Crate :=
  [.style, .styleHost, .macros, .withBuiltin, .askama, .core, .ansi, .html, .plain, .stylish]

/-- The features of the packages (Cargo.toml and */Cargo.toml, `[features]`). -/
inductive Feature where
  | default | std | alloc | macros | ansi | html | plain
  deriving DecidableEq, Repr

/-- All of them. (Cargo.toml:11-36) -/
def Feature.all : List Feature := [.default, .std, .alloc, .macros, .ansi, .html, .plain]

/-- What a feature of a manifest may turn on: a feature of the same package, `"dep:c"`, `"c/f"` and `"c?/f"`
(Cargo.toml:11-36). -/
inductive Enables where
  | feature (f : Feature)
  | dep (c : Crate)
  | depFeature (c : Crate) (f : Feature)
  | weakFeature (c : Crate) (f : Feature)
  deriving DecidableEq, Repr

/-- The features of `stylish-ansi`, `-html` and `-plain` (ansi/Cargo.toml:10-14, html/Cargo.toml:10-14,
plain/Cargo.toml:10-15). -/
def backendFeatures : List (Feature × List Enables) := [
  (.default, [.feature .std]),
  (.std, [.feature .alloc, .depFeature .core .std]),
  (.alloc, [.depFeature .core .alloc]),
  (.macros, [.depFeature .core .macros])]

/-- The `[features]` tables of the manifests (Cargo.toml:11-36, core/Cargo.toml:10-14, style/Cargo.toml:10-13,
ansi/Cargo.toml:10-14, html/Cargo.toml:10-14, plain/Cargo.toml:10-15). -/
def features : Crate → List (Feature × List Enables)
  | .stylish => [
    (.default, [.feature .std, .feature .macros]),
    (.std, [.feature .alloc, .depFeature .core .std, .weakFeature .ansi .std, .weakFeature .html .std,
      .weakFeature .plain .std]),
    (.alloc, [.depFeature .core .alloc, .weakFeature .ansi .alloc, .weakFeature .html .alloc,
      .weakFeature .plain .alloc]),
    (.macros, [.depFeature .core .macros, .weakFeature .ansi .macros, .weakFeature .html .macros,
      .weakFeature .plain .macros, .dep .macros]),
    (.ansi, [.dep .ansi]),
    (.html, [.dep .html]),
    (.plain, [.dep .plain])]
  | .core => [
    (.default, [.feature .std]),
    (.std, [.feature .alloc]),
    (.alloc, []),
    (.macros, [.dep .withBuiltin, .dep .macros])]
  | .style | .styleHost => [
    (.default, [.feature .std]),
    (.std, [.feature .alloc]),
    (.alloc, [])]
  | .ansi | .html | .plain => backendFeatures
  | .macros | .withBuiltin | .askama => []

/-- A dependency; all of them are declared with `default-features = false` (Cargo.toml:38-57). -/
structure Dep where
  crate : Crate
  features : List Feature
  optional : Bool
  deriving DecidableEq, Repr

/-- The `[dependencies]` tables of the manifests (Cargo.toml:38-57, core/Cargo.toml:16-26, macros/Cargo.toml:13-31,
ansi/Cargo.toml:16-19, html/Cargo.toml:16-21, plain/Cargo.toml:17-20). -/
def deps : Crate → List Dep
  | .stylish => [⟨.ansi, [], true⟩, ⟨.core, [], false⟩, ⟨.html, [], true⟩, ⟨.macros, [], true⟩, ⟨.plain, [], true⟩]
  | .core => [⟨.withBuiltin, [], true⟩, ⟨.macros, [], true⟩, ⟨.style, [], false⟩]
  | .macros => [⟨.styleHost, [.alloc], false⟩]
  | .ansi => [⟨.core, [], false⟩]
  | .html => [⟨.askama, [], false⟩, ⟨.core, [], false⟩]
  | .plain => [⟨.core, [], false⟩]
  | .style | .styleHost | .withBuiltin | .askama => []

/-- What can be said about a build: a package is part of it, a feature of a package is on, a package uses another one
(which it always does unless the dependency is optional), and whether the compiler is called with
`--cfg stylish_proc_macro_expand` (core/src/lib.rs:101, 116). -/
inductive Fact where
  | built (c : Crate)
  | on (c : Crate) (f : Feature)
  | uses (c d : Crate)
  | flag
  deriving DecidableEq, Repr

/-- "If all of `hyps` then `concl`": one of Cargo's rules, for the manifests of the project (Cargo.toml:11-57 and */Cargo.toml). -/
structure Rule where
  hyps : List Fact
  concl : Fact
  deriving DecidableEq, Repr

/-- What follows from a feature `f` of `c` being on. `"d/g"` turns the dependency on as well, `"d?/g"` does nothing
without it. (Cargo, external; for the tables of Cargo.toml:11-36) -/
def Enables.rules (c : Crate) (f : Feature) : Enables → List Rule
  | .feature g => [⟨[.built c, .on c f], .on c g⟩]
  | .dep d => [⟨[.built c, .on c f], .uses c d⟩]
  | .depFeature d g => [⟨[.built c, .on c f], .uses c d⟩, ⟨[.built c, .on c f], .on d g⟩]
  | .weakFeature d g => [⟨[.built c, .on c f, .uses c d], .on d g⟩]

/-- What follows from a dependency of `c`. (Cargo, external; for the tables of Cargo.toml:38-57) -/
def Dep.rules (c : Crate) (d : Dep) : List Rule :=
  (if d.optional then [] else [⟨[.built c], .uses c d.crate⟩]) ++
  [⟨[.built c, .uses c d.crate], .built d.crate⟩] ++
  d.features.map (fun f => ⟨[.built c, .uses c d.crate], .on d.crate f⟩)

/-- The rules of all manifests (Cargo.toml, */Cargo.toml). -/
def rules : List Rule :=
  Crate.all.flatMap fun c =>
    (features c).flatMap (fun p => p.2.flatMap (Enables.rules c p.1)) ++ (deps c).flatMap (Dep.rules c)

/-- With `resolver = "1"` a package has the same features for the compiling machine as for the target; with
`resolver = "2"`, the default since edition 2021 (Cargo.toml:4), it has not. (Cargo, external) -/
def sharedRules : List Rule :=
  Feature.all.flatMap fun f => [⟨[.on .style f], .on .styleHost f⟩, ⟨[.on .styleHost f], .on .style f⟩]

/-- A build: the facts that are true of it. (the result of Cargo's reading of Cargo.toml and */Cargo.toml) -/
abbrev Build := Fact → Prop

/-- The build keeps to the manifests (Cargo.toml:11-57 and */Cargo.toml). Any number of other packages may have asked for more
features of any of the packages. -/
def Build.Closed (B : Build) : Prop := ∀ r ∈ rules, (∀ h ∈ r.hyps, B h) → B r.concl

/-- The build when the only thing asked for is `stylish` with the features `S` (Cargo.toml:11-36), with
`resolver = "1"` (`shared`) or `"2"`: what the rules force, and nothing else. -/
inductive Resolved (shared flag : Bool) (S : Feature → Prop) : Build where
  | root : Resolved shared flag S (.built .stylish)
  | chosen (f : Feature) : S f → Resolved shared flag S (.on .stylish f)
  | flag : flag = true → Resolved shared flag S .flag
  | rule (r : Rule) : r ∈ rules → (∀ h ∈ r.hyps, Resolved shared flag S h) → Resolved shared flag S r.concl
  | shared (r : Rule) : shared = true → r ∈ sharedRules → (∀ h ∈ r.hyps, Resolved shared flag S h) →
      Resolved shared flag S r.concl

/-! ### The sources -/

/-- The identifiers of the project that are mentioned across items; `hidden` is the module with the unpronounceable
name (core/src/lib.rs:50), and `RestyleBox` stands for `impl Restyle for Box` (style/src/lib.rs:224). -/
inductive Id where
  | alloc | std | hidden
  | Color | Intensity | Style | StyleDiff | Foreground | Background | Restyle | RestyleBox
  | arguments | display | format | formatter | string | to_string | write | std_compat | io | util
  | StdFmt | StdFmtOther | StdFmtDebug | Arguments | Display | Align | Sign | DebugHex | FormatterArgs | Formatter
  | String | ToStylishString | Write | StdProxy | Error | ErrorKind | Result | fmt | Option
  | format_args | _format_args | format_args_nl | with_builtin | writeln | std_write
  | escape | Html | Ansi | Plain | ansi | html | plain | foreground | background | intensity
  | ToAnsiString | ToHtmlString | ToPlainString
  deriving DecidableEq, Repr

/-- Rust's namespaces, and one for implementations of traits (style/src/lib.rs:224). -/
inductive Ns where
  | type | value | «macro» | impl
  deriving DecidableEq, Repr

/-- All of them. (Rust; style/src/lib.rs:224) -/
def Ns.all : List Ns := [.type, .value, .macro, .impl]

/-- A name that is mentioned: `crate::path`, in a namespace (for example core/src/format.rs:1). -/
structure Ref where
  crate : Crate
  path : List Id
  ns : Ns
  deriving DecidableEq, Repr

/-- One condition of a `#[cfg(..)]` (for example src/lib.rs:20, core/src/lib.rs:101). -/
inductive Lit where
  | feature (f : Feature)
  | notFeature (f : Feature)
  | flag
  | notFlag
  deriving DecidableEq, Repr

/-- Something a crate defines, with the conditions of its own `cfg` and those of the modules it is in; `vis` says if
it can be named from outside the crate by this path; `expands`, for a macro: the names its expansion mentions.
(*/src/*.rs) -/
structure Def where
  path : List Id
  ns : Ns
  vis : Bool
  cfg : List Lit
  expands : List Ref
  deriving DecidableEq, Repr

/-- `pub use`, which stands for whatever the target is, in every namespace (for example src/lib.rs:20-29). -/
structure Use where
  path : List Id
  vis : Bool
  cfg : List Lit
  crate : Crate
  target : List Id
  deriving DecidableEq, Repr

/-- A piece of code under a `cfg`, with the names it mentions (*/src/*.rs). -/
structure Code where
  cfg : List Lit
  refs : List Ref
  deriving DecidableEq, Repr

/-- A crate (*/src/lib.rs). -/
structure Source where
  defs : List Def
  uses : List Use
  code : List Code

/-! Abbreviations for the tables below. -/

/-- `#[cfg(feature = "std")]` (for example core/src/lib.rs:18). -/
abbrev std : List Lit := [.feature .std]
/-- `#[cfg(feature = "alloc")]` (for example core/src/lib.rs:15). -/
abbrev alloc : List Lit := [.feature .alloc]
/-- `#[cfg(feature = "macros")]` (for example core/src/lib.rs:48). -/
abbrev macros : List Lit := [.feature .macros]
/-- `#[cfg(all(feature = "alloc", feature = "macros"))]` (for example core/src/lib.rs:34). -/
abbrev allocMacros : List Lit := [.feature .alloc, .feature .macros]
/-- A `pub` item in public modules (for example core/src/io.rs:69). -/
abbrev pub (ns : Ns) (path : List Id) (cfg : List Lit) : Def := ⟨path, ns, true, cfg, []⟩
/-- An item in a private module (for example core/src/arguments.rs:5). -/
abbrev priv (ns : Ns) (path : List Id) (cfg : List Lit) : Def := ⟨path, ns, false, cfg, []⟩
/-- The names of the functions of `util` (ansi/src/util.rs, html/src/util.rs). -/
abbrev utilRefs (c : Crate) : List Ref :=
  [⟨c, [.util, .foreground], .value⟩, ⟨c, [.util, .background], .value⟩, ⟨c, [.util, .intensity], .value⟩]

/-- style/src/lib.rs:10-313. -/
def styleSource : Source where
  defs := [
    priv .type [.alloc] alloc,                       -- 10-11
    pub .type [.Color] [], pub .type [.Intensity] [], pub .type [.Style] [], pub .type [.StyleDiff] [],
    pub .type [.Foreground] [], pub .value [.Foreground] [], pub .type [.Background] [], pub .value [.Background] [],
    pub .type [.Restyle] [],
    pub .impl [.RestyleBox] alloc]                   -- 223-228
  uses := []
  code := []

/-- The code of style/src/lib.rs:223-224, which mentions `alloc::boxed::Box`. `c` is one of the two builds. -/
def styleCode (c : Crate) : List Code := [⟨alloc, [⟨c, [.alloc], .type⟩]⟩]

/-- What the code that the proc macro generates mentions, after `#export` (macros/src/lib.rs:137-222,
macros/src/to_tokens.rs:18-233); `#export` is the hidden module of `stylish-core`. -/
def generated : List Ref :=
  [(.Option, .type), (.Color, .type), (.Intensity, .type), (.Foreground, .value), (.StyleDiff, .type), (.Align, .type),
   (.Sign, .type), (.DebugHex, .type), (.FormatterArgs, .type), (.StdFmt, .type), (.fmt, .type), (.StdFmtDebug, .value),
   (.StdFmtOther, .value), (.Formatter, .type), (.Display, .type), (.Arguments, .type)].map
    fun (p : Id × Ns) => ⟨.core, [.hidden, p.1], p.2⟩

/-- macros/src/lib.rs:230-245, and what macros/src/format.rs and to_tokens.rs use of `stylish-style`
(format.rs:12, 51-66). -/
def macrosSource : Source where
  defs := [⟨[.format_args], .macro, true, [], generated⟩, ⟨[.format_args_nl], .macro, true, [], generated⟩]
  uses := []
  code := [⟨[], [⟨.styleHost, [.Color], .type⟩, ⟨.styleHost, [.Intensity], .type⟩, ⟨.styleHost, [.Style], .type⟩,
    ⟨.styleHost, [.StyleDiff], .type⟩, ⟨.styleHost, [.Restyle], .type⟩, ⟨.styleHost, [.Foreground], .type⟩,
    ⟨.styleHost, [.Foreground], .value⟩, ⟨.styleHost, [.Background], .value⟩, ⟨.styleHost, [.RestyleBox], .impl⟩]⟩]

/-- `with_builtin_macros` (external), as used in core/src/lib.rs:54. -/
def withBuiltinSource : Source := ⟨[pub .macro [.with_builtin] []], [], []⟩

/-- `askama_escape` (external), as used in html/src/html.rs:3. -/
def askamaSource : Source := ⟨[pub .value [.escape] [], pub .type [.Html] [], pub .value [.Html] []], [], []⟩

/-- core/src/lib.rs:15-123 and the files of its modules (lines in the table). -/
def coreSource : Source where
  defs := [
    -- lib.rs:15-36
    priv .type [.alloc] alloc, priv .type [.std] std, pub .type [.io] std,
    priv .type [.std_compat] [], priv .type [.arguments] [], priv .type [.display] [], priv .type [.format] alloc,
    priv .type [.formatter] [], priv .type [.string] alloc, priv .type [.to_string] allocMacros, priv .type [.write] [],
    -- lib.rs:38
    pub .type [.Error] [], pub .value [.Error] [], pub .type [.Result] [],
    -- arguments.rs:5, 28, 37, 56
    priv .type [.arguments, .StdFmt] [], priv .type [.arguments, .StdFmtOther] [], priv .value [.arguments, .StdFmtOther] [],
    priv .type [.arguments, .StdFmtDebug] [], priv .value [.arguments, .StdFmtDebug] [],
    priv .type [.arguments, .Arguments] [],
    -- display.rs:29
    priv .type [.display, .Display] [],
    -- format.rs:3-24, 58
    ⟨[.format], .macro, true, allocMacros, [⟨.core, [.format], .value⟩, ⟨.core, [.format_args], .macro⟩]⟩,
    priv .value [.format, .format] alloc,
    -- formatter.rs:5, 13, 20, 27, 44
    priv .type [.formatter, .Align] [], priv .type [.formatter, .Sign] [], priv .type [.formatter, .DebugHex] [],
    priv .type [.formatter, .FormatterArgs] [], priv .type [.formatter, .Formatter] [],
    -- io.rs:4, 69
    pub .type [.io, .Error] std, pub .type [.io, .ErrorKind] std, pub .type [.io, .Result] std, pub .type [.io, .Write] std,
    -- std_compat.rs:1-76, 78
    ⟨[.std_write], .macro, false, [], [⟨.core, [.formatter, .FormatterArgs], .type⟩, ⟨.core, [.std_compat, .StdProxy], .value⟩,
      ⟨.core, [.formatter, .Sign], .type⟩, ⟨.core, [.formatter, .Align], .type⟩, ⟨.core, [.formatter, .DebugHex], .type⟩]⟩,
    priv .type [.std_compat, .StdProxy] [], priv .value [.std_compat, .StdProxy] [],
    -- string.rs:43
    priv .type [.string, .String] alloc,
    -- to_string.rs:9
    priv .type [.to_string, .ToStylishString] allocMacros,
    -- write.rs:12, 135-140, 161-169: no `cfg` on the macros
    priv .type [.write, .Write] [],
    ⟨[.write], .macro, true, [], [⟨.core, [.format_args], .macro⟩]⟩,
    ⟨[.writeln], .macro, true, [], [⟨.core, [.write], .macro⟩, ⟨.core, [.hidden, .format_args_nl], .macro⟩]⟩,
    -- lib.rs:48-51
    pub .type [.hidden] macros, pub .type [.hidden, .fmt] macros, pub .type [.hidden, .Option] macros,
    -- lib.rs:63-98, 100-113, 115-123
    ⟨[.format_args], .macro, true, macros, [⟨.core, [._format_args], .macro⟩]⟩,
    ⟨[._format_args], .macro, true, macros ++ [.notFlag],
      [⟨.core, [.hidden, .format_args], .macro⟩, ⟨.core, [.hidden, .with_builtin], .macro⟩]⟩,
    ⟨[._format_args], .macro, true, macros ++ [.flag], [⟨.core, [.hidden, .format_args], .macro⟩]⟩]
  uses :=
    -- lib.rs:40
    ([.Background, .Color, .Foreground, .Intensity, .Restyle, .Style, .StyleDiff].map
      fun x => ⟨[x], true, [], .style, [x]⟩) ++
    -- lib.rs:42-46
    [⟨[.ToStylishString], true, allocMacros, .core, [.to_string, .ToStylishString]⟩,
     ⟨[.Arguments], true, [], .core, [.arguments, .Arguments]⟩, ⟨[.Display], true, [], .core, [.display, .Display]⟩,
     ⟨[.Formatter], true, [], .core, [.formatter, .Formatter]⟩, ⟨[.Write], true, [], .core, [.write, .Write]⟩,
     ⟨[.format], true, alloc, .core, [.format, .format]⟩, ⟨[.String], true, alloc, .core, [.string, .String]⟩,
    -- lib.rs:53-54
     ⟨[.hidden, .format_args], true, macros, .macros, [.format_args]⟩,
     ⟨[.hidden, .format_args_nl], true, macros, .macros, [.format_args_nl]⟩,
     ⟨[.hidden, .with_builtin], true, macros, .withBuiltin, [.with_builtin]⟩] ++
    -- lib.rs:56-60
    ([.Arguments, .StdFmt, .StdFmtDebug, .StdFmtOther].map
      fun x => ⟨[.hidden, x], true, macros, .core, [.arguments, x]⟩) ++
    ([.Align, .DebugHex, .Formatter, .FormatterArgs, .Sign].map
      fun x => ⟨[.hidden, x], true, macros, .core, [.formatter, x]⟩) ++
    ([.Background, .Color, .Display, .Foreground, .Intensity, .StyleDiff].map
      fun x => ⟨[.hidden, x], true, macros, .core, [x]⟩)
  code := [
    -- arguments.rs
    ⟨[], [⟨.core, [.Display], .type⟩, ⟨.core, [.Formatter], .type⟩, ⟨.core, [.Result], .type⟩, ⟨.core, [.std_write], .macro⟩]⟩,
    -- display.rs
    ⟨[], [⟨.core, [.Formatter], .type⟩, ⟨.core, [.Result], .type⟩]⟩,
    -- format.rs
    ⟨alloc, [⟨.core, [.Arguments], .type⟩, ⟨.core, [.String], .type⟩, ⟨.core, [.Write], .type⟩]⟩,
    -- formatter.rs
    ⟨[], [⟨.core, [.Arguments], .type⟩, ⟨.core, [.Display], .type⟩, ⟨.core, [.Restyle], .type⟩, ⟨.core, [.Result], .type⟩,
      ⟨.core, [.Style], .type⟩, ⟨.core, [.Write], .type⟩]⟩,
    -- io.rs
    ⟨std, [⟨.core, [.std], .type⟩, ⟨.core, [.Arguments], .type⟩, ⟨.core, [.Style], .type⟩, ⟨.core, [.Write], .type⟩,
      ⟨.core, [.Result], .type⟩, ⟨.core, [.Error], .value⟩]⟩,
    -- std_compat.rs
    ⟨[], [⟨.core, [.formatter, .Formatter], .type⟩, ⟨.core, [.Result], .type⟩]⟩,
    -- string.rs
    ⟨alloc, [⟨.core, [.alloc], .type⟩, ⟨.core, [.Display], .type⟩, ⟨.core, [.Formatter], .type⟩, ⟨.core, [.Result], .type⟩,
      ⟨.core, [.Style], .type⟩, ⟨.core, [.Write], .type⟩]⟩,
    -- to_string.rs
    ⟨allocMacros, [⟨.core, [.format], .macro⟩, ⟨.core, [.Display], .type⟩, ⟨.core, [.String], .type⟩]⟩,
    -- write.rs
    ⟨[], [⟨.core, [.Arguments], .type⟩, ⟨.core, [.Formatter], .type⟩, ⟨.core, [.Result], .type⟩, ⟨.core, [.Style], .type⟩]⟩]

/-- ansi/src/lib.rs:11-36 and the files of its modules (lines in the table). -/
def ansiSource : Source where
  defs := [
    -- lib.rs:11-30
    priv .type [.alloc] alloc, priv .type [.std] std, priv .type [.ansi] [], priv .type [.format] alloc, pub .type [.io] std,
    priv .type [.to_string] allocMacros, priv .type [.util] [], pub .type [.hidden] macros,
    -- ansi.rs:17, format.rs:7-23, 37, io.rs:21, to_string.rs:15, util.rs:3, 28, 53
    priv .type [.ansi, .Ansi] [],
    ⟨[.format], .macro, true, allocMacros, [⟨.ansi, [.format], .value⟩, ⟨.ansi, [.hidden, .format_args], .macro⟩]⟩,
    priv .value [.format, .format] alloc,
    pub .type [.io, .Ansi] std,
    priv .type [.to_string, .ToAnsiString] allocMacros,
    priv .value [.util, .foreground] [], priv .value [.util, .background] [], priv .value [.util, .intensity] []]
  uses := [
    -- lib.rs:29-36
    ⟨[.hidden, .format_args], true, macros, .core, [.format_args]⟩,
    ⟨[.Ansi], true, [], .ansi, [.ansi, .Ansi]⟩, ⟨[.format], true, alloc, .ansi, [.format, .format]⟩,
    ⟨[.ToAnsiString], true, allocMacros, .ansi, [.to_string, .ToAnsiString]⟩]
  code := [
    -- ansi.rs
    ⟨[], [⟨.core, [.Style], .type⟩, ⟨.core, [.Write], .type⟩, ⟨.core, [.Arguments], .type⟩] ++ utilRefs .ansi⟩,
    -- format.rs
    ⟨alloc, [⟨.ansi, [.alloc], .type⟩, ⟨.core, [.Arguments], .type⟩, ⟨.ansi, [.Ansi], .type⟩]⟩,
    -- io.rs
    ⟨std, [⟨.core, [.io, .Result], .type⟩, ⟨.core, [.io, .Write], .type⟩, ⟨.core, [.Style], .type⟩,
      ⟨.core, [.Arguments], .type⟩, ⟨.ansi, [.std], .type⟩] ++ utilRefs .ansi⟩,
    -- to_string.rs
    ⟨allocMacros, [⟨.ansi, [.alloc], .type⟩, ⟨.core, [.Display], .type⟩, ⟨.ansi, [.format], .macro⟩]⟩,
    -- util.rs
    ⟨[], [⟨.core, [.Color], .type⟩, ⟨.core, [.Intensity], .type⟩]⟩]

/-- html/src/lib.rs:11-31 and the files of its modules (lines in the table). -/
def htmlSource : Source where
  defs := [
    -- lib.rs:11-25
    priv .type [.alloc] alloc, priv .type [.format] alloc, priv .type [.html] [], priv .type [.to_string] allocMacros,
    priv .type [.util] [], pub .type [.hidden] macros,
    -- html.rs:21, format.rs:7-23, 37, to_string.rs:15, util.rs:3, 28, 53
    priv .type [.html, .Html] [],
    ⟨[.format], .macro, true, allocMacros, [⟨.html, [.format], .value⟩, ⟨.html, [.hidden, .format_args], .macro⟩]⟩,
    priv .value [.format, .format] alloc,
    priv .type [.to_string, .ToHtmlString] allocMacros,
    priv .value [.util, .foreground] [], priv .value [.util, .background] [], priv .value [.util, .intensity] []]
  uses := [
    -- lib.rs:24-31
    ⟨[.hidden, .format_args], true, macros, .core, [.format_args]⟩,
    ⟨[.format], true, alloc, .html, [.format, .format]⟩, ⟨[.Html], true, [], .html, [.html, .Html]⟩,
    ⟨[.ToHtmlString], true, allocMacros, .html, [.to_string, .ToHtmlString]⟩]
  code := [
    -- html.rs
    ⟨[], [⟨.askama, [.escape], .value⟩, ⟨.askama, [.Html], .value⟩, ⟨.core, [.Style], .type⟩, ⟨.core, [.Write], .type⟩,
      ⟨.core, [.Arguments], .type⟩] ++ utilRefs .html⟩,
    -- format.rs
    ⟨alloc, [⟨.html, [.alloc], .type⟩, ⟨.core, [.Arguments], .type⟩, ⟨.html, [.Html], .type⟩]⟩,
    -- to_string.rs
    ⟨allocMacros, [⟨.html, [.alloc], .type⟩, ⟨.core, [.Display], .type⟩, ⟨.html, [.format], .macro⟩]⟩,
    -- util.rs
    ⟨[], [⟨.core, [.Color], .type⟩, ⟨.core, [.Intensity], .type⟩]⟩]

/-- plain/src/lib.rs:11-35 and the files of its modules (lines in the table). -/
def plainSource : Source where
  defs := [
    -- lib.rs:11-35
    priv .type [.alloc] alloc, priv .type [.std] std, priv .type [.format] alloc, pub .type [.io] std, priv .type [.plain] [],
    priv .type [.to_string] allocMacros, pub .type [.hidden] macros,
    -- plain.rs:13, format.rs:7-22, 37, io.rs:19, to_string.rs:15
    priv .type [.plain, .Plain] [],
    ⟨[.format], .macro, true, allocMacros, [⟨.plain, [.format], .value⟩, ⟨.plain, [.hidden, .format_args], .macro⟩]⟩,
    priv .value [.format, .format] alloc,
    pub .type [.io, .Plain] std,
    priv .type [.to_string, .ToPlainString] allocMacros]
  uses := [
    -- lib.rs:25-34
    ⟨[.format], true, alloc, .plain, [.format, .format]⟩, ⟨[.Plain], true, [], .plain, [.plain, .Plain]⟩,
    ⟨[.ToPlainString], true, allocMacros, .plain, [.to_string, .ToPlainString]⟩,
    ⟨[.hidden, .format_args], true, macros, .core, [.format_args]⟩]
  code := [
    -- format.rs
    ⟨alloc, [⟨.plain, [.alloc], .type⟩, ⟨.core, [.Arguments], .type⟩, ⟨.plain, [.Plain], .type⟩]⟩,
    -- io.rs
    ⟨std, [⟨.core, [.io, .Result], .type⟩, ⟨.core, [.io, .Write], .type⟩, ⟨.core, [.Style], .type⟩,
      ⟨.core, [.Arguments], .type⟩, ⟨.plain, [.std], .type⟩]⟩,
    -- plain.rs
    ⟨[], [⟨.core, [.Result], .type⟩, ⟨.core, [.Style], .type⟩, ⟨.core, [.Write], .type⟩, ⟨.core, [.Arguments], .type⟩]⟩,
    -- to_string.rs
    ⟨allocMacros, [⟨.plain, [.alloc], .type⟩, ⟨.core, [.Display], .type⟩, ⟨.plain, [.format], .macro⟩]⟩]

/-- src/lib.rs:6-146. -/
def stylishSource : Source where
  defs := [
    priv .type [.std] std,                                               -- 6-7
    pub .type [.io] std,                                                 -- 31-32
    pub .value [.io, .ansi] [.feature .std, .feature .ansi],             -- 40-50
    pub .value [.io, .plain] [.feature .std, .feature .plain],           -- 56-66
    pub .value [.ansi] [.feature .ansi],                                 -- 70-81
    pub .value [.html] [.feature .html],                                 -- 83-97
    pub .value [.plain] [.feature .plain],                               -- 99-110
    pub .type [.ansi] [.feature .ansi],                                  -- 116-117
    pub .type [.html] [.feature .html],                                  -- 128-129
    pub .type [.plain] [.feature .plain]]                                -- 140-141
  uses :=
    [⟨[.ToStylishString], true, allocMacros, .core, [.ToStylishString]⟩, -- 20-21
     ⟨[.format], true, alloc, .core, [.format]⟩,                         -- 22-23
     ⟨[.String], true, alloc, .core, [.String]⟩,
     ⟨[.format_args], true, macros, .core, [.format_args]⟩,              -- 24-25
     ⟨[.write], true, macros, .core, [.write]⟩,
     ⟨[.writeln], true, macros, .core, [.writeln]⟩] ++
    -- 26-29
    ([.Arguments, .Background, .Color, .Display, .Error, .Foreground, .Formatter, .Intensity, .Restyle, .Result, .Style,
      .StyleDiff, .Write].map fun x => ⟨[x], true, [], .core, [x]⟩) ++
    [⟨[.io, .Ansi], true, [.feature .std, .feature .ansi], .ansi, [.io, .Ansi]⟩,        -- 36-37
     ⟨[.io, .Plain], true, [.feature .std, .feature .plain], .plain, [.io, .Plain]⟩] ++ -- 53-54
    -- 38
    ([.Error, .ErrorKind, .Result, .Write].map fun x => ⟨[.io, x], true, std, .core, [.io, x]⟩) ++
    -- 112-122
    [⟨[.Ansi], true, [.feature .ansi], .ansi, [.Ansi]⟩,
     ⟨[.ToAnsiString], true, [.feature .ansi, .feature .alloc, .feature .macros], .ansi, [.ToAnsiString]⟩,
     ⟨[.ansi, .format], true, [.feature .ansi, .feature .alloc], .ansi, [.format]⟩,
    -- 124-134
     ⟨[.Html], true, [.feature .html], .html, [.Html]⟩,
     ⟨[.ToHtmlString], true, [.feature .html, .feature .alloc, .feature .macros], .html, [.ToHtmlString]⟩,
     ⟨[.html, .format], true, [.feature .html, .feature .alloc], .html, [.format]⟩,
    -- 136-146
     ⟨[.Plain], true, [.feature .plain], .plain, [.Plain]⟩,
     ⟨[.ToPlainString], true, [.feature .plain, .feature .alloc, .feature .macros], .plain, [.ToPlainString]⟩,
     ⟨[.plain, .format], true, [.feature .plain, .feature .alloc], .plain, [.format]⟩]
  code := [
    ⟨[.feature .std, .feature .ansi], [⟨.stylish, [.std], .type⟩, ⟨.stylish, [.io, .Ansi], .type⟩]⟩,   -- 48-50
    ⟨[.feature .std, .feature .plain], [⟨.stylish, [.std], .type⟩, ⟨.stylish, [.io, .Plain], .type⟩]⟩, -- 64-66
    ⟨[.feature .ansi], [⟨.stylish, [.Ansi], .type⟩]⟩,                                                  -- 79-81
    ⟨[.feature .html], [⟨.stylish, [.Html], .type⟩]⟩,                                                  -- 95-97
    ⟨[.feature .plain], [⟨.stylish, [.Plain], .type⟩]⟩]                                                -- 108-110

/-- The sources of the crates (src/lib.rs, */src/*.rs). -/
def source : Crate → Source
  | .style => { styleSource with code := styleCode .style }
  | .styleHost => { styleSource with code := styleCode .styleHost }
  | .macros => macrosSource
  | .withBuiltin => withBuiltinSource
  | .askama => askamaSource
  | .core => coreSource
  | .ansi => ansiSource
  | .html => htmlSource
  | .plain => plainSource
  | .stylish => stylishSource

/-! ### What the compiler makes of it (rustc, external) -/

/-- The condition holds for crate `c` in the build. (`#[cfg(..)]`, for example src/lib.rs:20) -/
def Lit.holds (B : Build) (c : Crate) : Lit → Prop
  | .feature f => B (.on c f)
  | .notFeature f => ¬ B (.on c f)
  | .flag => B .flag
  | .notFlag => ¬ B .flag

/-- All conditions hold. (`#[cfg(all(..))]`, for example src/lib.rs:20) -/
def Holds (B : Build) (c : Crate) (cfg : List Lit) : Prop := ∀ l ∈ cfg, l.holds B c

/-- A name can be used by the crate `some c`, or, for `none`, by any crate, as in the expansion of an exported macro:
it is defined there or re-exported from where it can be used, what is not in the same crate is visible and the crate
a dependency, and if it is a macro then so can be the names in its expansion. (rustc, external) -/
inductive Usable (B : Build) : Option Crate → Ref → Prop where
  | item (frm : Option Crate) (r : Ref) (d : Def) (hd : d ∈ (source r.crate).defs) (hp : d.path = r.path) (hn : d.ns = r.ns)
      (hc : Holds B r.crate d.cfg) (hv : frm = some r.crate ∨ d.vis = true)
      (hu : ∀ c, frm = some c → c = r.crate ∨ B (.uses c r.crate))
      (hx : ∀ e ∈ d.expands, Usable B (if d.vis then none else frm) e) : Usable B frm r
  | reexport (frm : Option Crate) (r : Ref) (u : Use) (hd : u ∈ (source r.crate).uses) (hp : u.path = r.path)
      (hc : Holds B r.crate u.cfg) (hv : frm = some r.crate ∨ u.vis = true)
      (hu : ∀ c, frm = some c → c = r.crate ∨ B (.uses c r.crate))
      (ht : Usable B (some r.crate) ⟨u.crate, u.target, r.ns⟩) : Usable B frm r

end Stylish.Cargo
