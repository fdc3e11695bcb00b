import Mathlib.Data.List.Sort
import Mathlib.Data.List.Dedup
/-!
# Model of the download of example data (nbodykit/tutorials/wget.py 1-198)

Strings are lists of characters. A page is what `urlopen` gives for a URL: the start tags of an HTML page (as `HTMLParser` finds them) with its
contents, the pieces `read` returns for another file, or an HTTP error. Local paths are lists of components; `.`, the empty component and `..` are
resolved without regard to links in the file system. The order in which Python walks through a set is a parameter. Calls nest up to the recursion limit.
-/
namespace NBK.Wget

abbrev Str := List Char
abbrev Path := List Str

inductive Err where
  | http (code : Nat)
  | urlError
  | valueError
  | indexError
  | attributeError
  | osError
  | recursionError
  deriving DecidableEq, Repr

/-- `[a-zA-Z_-]`. -/
def schemeChar (c : Char) : Bool := c.isAlpha || c == '_' || c == '-'

/-- `re_url.match` (wget.py 14): groups 1 and 4, the latter empty if it does not match. Lines do not end within a URL. -/
def splitUrl (s : Str) : Option (Str × Str) :=
  let sch := s.takeWhile schemeChar
  if sch = [] then none
  else match s.dropWhile schemeChar with
    | ':' :: '/' :: '/' :: t =>
      let host := t.takeWhile fun c => c != '/'
      if host = [] then none else some (sch ++ ':' :: '/' :: '/' :: host, t.dropWhile fun c => c != '/')
    | _ => none

/-- `resolve_link` (wget.py 16-33). -/
def resolve (link url : Str) : Except Err Str :=
  match splitUrl link with
  | some (_, p) => .ok (if p = [] then link ++ ['/'] else link)
  | none => match link with
    | [] => .error .indexError
    | c :: _ =>
      if c = '/' then match splitUrl url with
        | none => .error .attributeError
        | some (b, _) => .ok (b ++ link)
      else match url.getLast? with
        | none => .error .indexError
        | some d => .ok (if d = '/' then url ++ link else url ++ '/' :: link)

/-- A start tag. -/
structure Tag where
  name : Str
  attrs : List (Str × Option Str)
  deriving DecidableEq, Repr

/-- The value of the first `href` that has one (wget.py 50-58). -/
def href : List (Str × Option Str) → Option Str
  | [] => none
  | (k, v) :: l =>
    if k = ['h', 'r', 'e', 'f'] then match v with
      | some (c :: s) => some (c :: s)
      | _ => href l
    else href l

/-- The links of the tags, as given. -/
def hrefs (tags : List Tag) : List Str := tags.filterMap fun t => if t.name = ['a'] then href t.attrs else none

/-- All the links resolved; the first error is raised. -/
def resolveAll (url : Str) : List Str → Except Err (List Str)
  | [] => .ok []
  | l :: ls => match resolve l url with
    | .error e => .error e
    | .ok r => (resolveAll url ls).map fun rs => r :: rs

/-- `ListingParser(url).feed(contents)` (wget.py 36-58): the set of links. -/
def links (url : Str) (tags : List Tag) : Except Err (List Str) :=
  match url.getLast? with
  | none => .error .indexError
  | some c => (resolveAll (if c = '/' then url else url ++ ['/']) (hrefs tags)).map List.dedup

/-- What is found at a URL. -/
inductive Page where
  | html (tags : List Tag) (contents : List Nat)
  | data (chunks : List (List Nat))
  | fail (e : Err)
  deriving DecidableEq, Repr

inductive Node where
  | dir
  | file (bytes : List Nat)
  deriving DecidableEq, Repr

/-- The local files, by the components of the path from the current directory. -/
abbrev Fs := Path → Option Node

/-- The path without `.`, empty components and `..`. -/
def normal (p : Path) : Path :=
  p.foldl (fun acc c => if c = [] ∨ c = ['.'] then acc else if c = ['.', '.'] then acc.dropLast else acc ++ [c]) []

/-- The current directory exists. -/
def isDir (fs : Fs) (p : Path) : Bool := p = [] ∨ fs p = some .dir

def put (fs : Fs) (p : Path) (n : Node) : Fs := fun q => if q = p then some n else fs q

/-- `os.mkdir` with `OSError` passed over (wget.py 79-85). -/
def mkdir (fs : Fs) (target : Path) : Fs :=
  let p := normal target
  if fs p = none ∧ p ≠ [] ∧ isDir fs p.dropLast then put fs p .dir else fs

/-- `open(target, 'wb')` and the contents. -/
def write (fs : Fs) (target : Path) (bytes : List Nat) : Except Err Fs :=
  let p := normal target
  if isDir fs p ∨ ¬ isDir fs p.dropLast then .error .osError else .ok (put fs p (.file bytes))

/-- The pieces read until an empty one (wget.py 121-126). -/
def readAll : List (List Nat) → List Nat
  | [] => []
  | c :: cs => if c = [] then [] else c ++ readAll cs

/-- `link[:-1]` if the link ends with a slash (wget.py 101-102). -/
def strip (link : Str) : Str := if link.getLast? = some '/' then link.dropLast else link

/-- `link.rsplit('/', 1)[1]`, or the link if it has no slash (which does not occur). -/
def lastName (link : Str) : Str := (link.reverse.takeWhile fun c => c != '/').reverse

/-- `target[-5:].lower()` ends with `.htm` or `.html` (wget.py 113-114), for the last component. -/
def isHtml (s : Str) : Bool :=
  let e := s.map Char.toLower
  ['.', 'h', 't', 'm'] <:+ e || ['.', 'h', 't', 'm', 'l'] <:+ e

/-- `target + '.html'` unless it ends so (wget.py 113-115). -/
def htmlTarget : Path → Path
  | [] => [['.', 'h', 't', 'm', 'l']]
  | [s] => [if isHtml s then s else s ++ ['.', 'h', 't', 'm', 'l']]
  | s :: t => s :: htmlTarget t

/-- The files and the URLs opened so far. -/
structure St where
  fs : Fs
  opened : List Str

/-- The loop over the links (wget.py 99-109); `rec` is the call of `mirror`. The boolean is `mkdir.done`. -/
def visit (rec : St → Str → Path → St × Option Err) (url : Str) (target : Path) : List Str → St → Bool → St × Bool × Option Err
  | [], st, done => (st, done, none)
  | l :: ls, st, done => match resolve l url with
    | .error e => (st, done, some e)
    | .ok r =>
      let link := strip r
      if ¬ url <+: link then visit rec url target ls st done
      else
        let name := lastName link
        if '?' ∈ name then visit rec url target ls st done
        else
          let st := { st with fs := if done then st.fs else mkdir st.fs target }
          match rec st link (target ++ [name]) with
          | (st, some e) => (st, true, some e)
          | (st, none) => visit rec url target ls st true

/-- `mirror(url, target)` (wget.py 87-126); `order` is the order of a set. -/
def mirror (srv : Str → Page) (order : List Str → List Str) : Nat → St → Str → Path → St × Option Err
  | 0, st, _, _ => (st, some .recursionError)
  | n + 1, st, url, target =>
    let st := { st with opened := st.opened ++ [url] }
    match srv url with
    | .fail e => (st, some e)
    | .data chunks => match write st.fs target (readAll chunks) with
      | .error e => (st, some e)
      | .ok fs => ({ st with fs := fs }, none)
    | .html tags contents => match links url tags with
      | .error e => (st, some e)
      | .ok ls => match visit (mirror srv order n) url target (order ls) st false with
        | (st, _, some e) => (st, some e)
        | (st, true, none) => (st, none)
        | (st, false, none) =>
          if url.getLast? = some '/' then (st, none)
          else match write st.fs (htmlTarget target) contents with
            | .error e => (st, some e)
            | .ok fs => ({ st with fs := fs }, none)

/-- The parts between the slashes. -/
def splitSlash : Str → List Str
  | [] => [[]]
  | c :: s => if c = '/' then [] :: splitSlash s else match splitSlash s with
    | [] => [[c]]
    | p :: ps => (c :: p) :: ps

/-- `os.path.normpath(url).split(os.path.sep)[-1]` for a URL (wget.py 76-77). -/
def defaultTarget (url : Str) : Path := [(normal (splitSlash url)).getLastD ['.']]

/-- The URL of the data (wget.py 12). -/
def dataUrl : Str := "http://portal.nersc.gov/project/m3035/nbodykit/example-data".toList

/-- The path of a link relative to the URL of the data, if it lies below it; `os.path.relpath` gives one that begins with `..` if not (wget.py 146). -/
def below (link : Str) : Option Path :=
  let p := normal (splitSlash link)
  let b := normal (splitSlash dataUrl)
  if b <+: p then some (p.drop b.length) else none

def joinSlash : Path → Str
  | [] => []
  | [s] => s
  | s :: t => s ++ '/' :: joinSlash t

/-- Comparison of strings. -/
def strLe : Str → Str → Bool
  | [], _ => true
  | _ :: _, [] => false
  | a :: s, b :: t => if a = b then strLe s t else a.toNat < b.toNat

/-- The names from the links (wget.py 145-148); the current directory is `.`. -/
def examplesOf (ls : List Str) : List Str :=
  let rel := ls.filterMap fun l => (below l).map joinSlash
  ((rel.filter fun s => s ≠ []).filter fun s => ¬ (['.'] <+: s ∨ ['?'] <+: s)).insertionSort fun a b => strLe a b = true

/-- `available_examples` (wget.py 128-149); a page that is not HTML is taken to have no tags. -/
def availableExamples (srv : Str → Page) : Except Err (List Str) :=
  match srv dataUrl with
  | .fail e => .error e
  | .data _ => .ok []
  | .html tags _ => (links dataUrl tags).map examplesOf

/-- `os.path.join(data_url, filename)` (wget.py 185): a filename that begins with a slash is the result. -/
def exampleUrl (filename : Str) : Str := if filename.head? = some '/' then filename else dataUrl ++ '/' :: filename

/-- The local target of a file (wget.py 180-183). -/
def targetOf (dirname : Option Path) (f : Str) : Path := match dirname with
  | some d => d ++ splitSlash f
  | none => defaultTarget (exampleUrl f)

/-- `download_example_data` (wget.py 152-198). A name that begins with a slash is no URL for `urlopen`, nothing is written then. -/
def download (srv : Str → Page) (order : List Str → List Str) (limit : Nat) (dirname : Option Path) : List Str → St → St × Option Err
  | [], st => (st, none)
  | f :: fs, st =>
    match mirror srv order limit st (exampleUrl f) (targetOf dirname f) with
    | (st, none) => download srv order limit dirname fs st
    | (st, some (.http 404)) => match availableExamples srv with
      | .error e => (st, some e)
      | .ok _ => (st, some .valueError)
    | (st, some e) => (st, some e)

/-- The directory is checked first (wget.py 172-175). -/
def downloadExampleData (srv : Str → Page) (order : List Str → List Str) (limit : Nat) (dirname : Option Path) (filenames : List Str) (st : St) :
    St × Option Err :=
  match dirname with
  | some d => if isDir st.fs (normal d) then download srv order limit dirname filenames st else (st, some .valueError)
  | none => download srv order limit dirname filenames st

end NBK.Wget
