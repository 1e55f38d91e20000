import Verif.Model.Compose
/-!
What a YAML file describes, said as relations: nothing here is run, and nothing here limits how deep files may be nested.
-/
namespace Verif.Spec.Compose
open Verif Verif.Yaml Verif.Compose

/-- What is left of a file when its includes are replaced by what is in them: parts, and blocks with the arguments they get. -/
inductive Item
  | part (p : Part)
  | block (f : File) (args : Dict Text Text)

def Item.part? : Item → Option Part
  | .part p => some p
  | .block _ _ => none

def Item.block? : Item → Option (File × Dict Text Text)
  | .part _ => none
  | .block f a => some (f, a)

/-- The class can be used and makes something of this name. -/
def Usable (w : World) (cls : Text) (params : Dict Text Val) (name : Text) : Prop :=
  (w.found cls = .cls ∨ ∃ g, w.found cls = .file g) ∧ w.make cls params = some name

/-- The sections, filled in with `d`, come to these items. An include stands for the sections of its file, filled in with its own
substitutions and nothing else. -/
inductive Expands (w : World) : Dict Text Text → List Sec → List Item → Prop
  | nil (d) : Expands w d [] []
  | parameter (d l n v ss is) : Expands w d ss is → Expands w d (⟨l, .parameter n v⟩ :: ss) is
  | define (d l n v ss is) : Expands w d ss is → Expands w d (⟨l, .define n v⟩ :: ss) is
  | controller (d l c ps ss is) : Expands w d ss is → Expands w d (⟨l, .controller c ps⟩ :: ss) is
  | part (d l c ps ss is name) : Usable w c (fill d ps) name → Expands w d ss is →
      Expands w d (⟨l, .part c ps⟩ :: ss) (.part ⟨c, fill d ps, name⟩ :: is)
  | block (d l n ps ss is g) : w.found n = .file g → g.controllers.length = 1 → Expands w d ss is →
      Expands w d (⟨l, .block n ps⟩ :: ss) (.block g (fillTexts d ps) :: is)
  | incl (d l n ps ss is g js args) : w.found n = .file g → g.controllers = [] → bindArgs g.yaml (fillTexts d ps) = some args →
      Expands w (createDefines g.yaml g.name g.dir args) g.sections js → Expands w d ss is →
      Expands w d (⟨l, .incl n ps⟩ :: ss) (js ++ is)

/-- A block of this file with these arguments is these controllers: first all that its blocks are, in the order they are written,
then its own, with the parts in the order they are written, no two of the same name. -/
inductive Describes (w : World) : File → Dict Text Text → List Ctrl → Prop
  | mk (f : File) (given args : Dict Text Text) (items : List Item) (children : List (List Ctrl)) (cls : Text) (params : Dict Text Val)
      (mri : Text) :
      bindArgs f.yaml given = some args →
      Expands w (createDefines f.yaml f.name f.dir args) f.sections items →
      children.length = (items.filterMap Item.block?).length →
      (∀ (i : Nat) (b : File × Dict Text Text) cs, (items.filterMap Item.block?)[i]? = some b → children[i]? = some cs → Describes w b.1 b.2 cs) →
      f.controllers = [(cls, params)] →
      Usable w cls (fill (createDefines f.yaml f.name f.dir args) params) mri →
      ((items.filterMap Item.part?).map (·.name)).Nodup →
      Describes w f given
        (children.flatten ++ [⟨cls, fill (createDefines f.yaml f.name f.dir args) params, mri, items.filterMap Item.part?⟩])

/-- A file for a whole process has these controllers. -/
def DescribesProcess (w : World) (f : File) (cs : List Ctrl) : Prop :=
  ∃ (args : Dict Text Text) (items : List Item) (children : List (List Ctrl)), f.controllers = [] ∧ bindArgs f.yaml [] = some args ∧
    Expands w (createDefines f.yaml f.name f.dir args) f.sections items ∧ items.filterMap Item.part? = [] ∧
    children.length = (items.filterMap Item.block?).length ∧
    (∀ (i : Nat) (b : File × Dict Text Text) c, (items.filterMap Item.block?)[i]? = some b → children[i]? = some c → Describes w b.1 b.2 c) ∧
    cs = children.flatten ∧ (cs.map (·.mri)).Nodup

/-- The name under which a section looks something up -/
def Sec.name? (s : Sec) : Option Text :=
  match s.body with
  | .part c _ => some c
  | .controller c _ => some c
  | .block n _ => some n
  | .incl n _ => some n
  | _ => none

/-- The file that a block or include section refers to -/
def Refers (w : World) (s : Sec) (k : Kind) (g : File) : Prop :=
  (∃ n ps, (s.body = .block n ps ∧ k = .block ∨ s.body = .incl n ps ∧ k = .incl) ∧ w.found n = .file g) ∧ g.fits k = true

/-- What an exception from a file says: the lines of sections, each in the file that the one before refers to, down to a section that
is at fault, and why. -/
inductive Blames (w : World) : File → List (Text × Nat) → Cause → Prop
  /-- there is nothing of this name -/
  | noModule (f s n) : s ∈ f.sections → Sec.name? s = some n → w.found n = .noModule → Blames w f [(f.path, s.line)] .noModule
  | noIdent (f s n) : s ∈ f.sections → Sec.name? s = some n → w.found n = .noIdent → Blames w f [(f.path, s.line)] .noIdent
  /-- a class refuses what it is given, or a block or include is not one -/
  | refused (f s n) : s ∈ f.sections → Sec.name? s = some n →
      ((∃ c ps d, (s.body = .part c ps ∨ s.body = .controller c ps) ∧ w.make c (fill d ps) = none) ∨ w.found n = .cls) →
      Blames w f [(f.path, s.line)] .refused
  /-- arguments missing or not known -/
  | arguments (f s k g) : s ∈ f.sections → Refers w s k g → (∃ given, bindArgs g.yaml given = none) →
      Blames w f [(f.path, s.line)] .arguments
  /-- something in the file that the section refers to -/
  | within (f s k g tr c) : s ∈ f.sections → Refers w s k g → Blames w g tr c → Blames w f ((f.path, s.line) :: tr) c
  /-- two parts of one block with the same name: this is known of the block only -/
  | duplicatePart (f s g) : s ∈ f.sections → Refers w s .block g → Blames w f [(f.path, s.line)] .duplicatePart
  | recursion (f s k g) : s ∈ f.sections → Refers w s k g → Blames w f [(f.path, s.line)] .recursion
  /-- a file that is not as it has to be: this is known of the file that refers to it only -/
  | broken (f s n) : s ∈ f.sections → Sec.name? s = some n →
      (w.found n = .broken ∨ ∃ g k, w.found n = .file g ∧ g.fits k = false) → Blames w f [] .broken

end Verif.Spec.Compose
