import Verif.Props.NanBox
import Verif.Props.PointerSet
import Verif.Props.Allocator
import Verif.Props.Collector
import Verif.Props.Lists
import Verif.Props.Equal
import Verif.Props.Utf8
import Verif.Props.Reader
import Verif.Props.Secd
import Verif.Props.SecdExamples
import Verif.Props.Lexical
import Verif.Props.TailLoop
import Verif.Props.SecdSpace
import Verif.Props.Number
import Verif.Props.Division
import Verif.Props.Bits
import Verif.Props.Roots
import Verif.Props.Control
import Verif.Props.Promise
import Verif.Props.Symbol
import Verif.Props.Library
import Verif.Props.LibraryExamples
import Verif.Props.Sequence
import Verif.Props.BytePort
import Verif.Props.Values
import Verif.Props.Record
import Verif.Props.Srfi1Sets
import Verif.Props.Hygiene
import Verif.Props.HygieneExamples
import Verif.Props.HygieneFails
import Verif.Props.MacroPrograms
import Verif.Props.Complex
import Verif.Props.ComplexText
import Verif.Props.DerivedForms
import Verif.Props.DerivedExamples
import Verif.Spec.DatumLabel
import Verif.Model.SharedStructure
import Verif.Props.SharedStructure
import Verif.Model.DatumLabels
import Verif.Props.DatumLabels
import Verif.Model.SyntaxRules
import Verif.Spec.SyntaxRules
import Verif.Props.SyntaxRules
import Verif.Props.SyntaxRulesFails
import Verif.Props.Rationalize
import Verif.Props.Quasiquote
import Verif.Props.Inexact
import Verif.Props.InexactArith
import Verif.Props.InexactDivision
import Verif.Props.Guard
import Verif.Props.InexactText
import Verif.Props.Flonum
import Verif.Props.Homogeneous
import Verif.Props.CommandLine
import Verif.Props.Include
import Verif.Props.HygieneLoop
import Verif.Props.LibraryMacros
import Verif.Props.CaseLambda
import Verif.Props.LibraryMacrosExample
import Verif.Props.Character
import Verif.Props.CharacterExample
import Verif.Props.Apply
import Verif.Props.Execute
import Verif.Props.ExecuteErrors
import Verif.Props.DefineValues
import Verif.Props.FilePort
import Verif.Props.FilePortControl
import Verif.Props.Case
import Verif.Props.LinearUpdate
import Verif.Props.Base
import Verif.Props.Check
import Verif.Props.Fixnum
import Verif.Props.Types
import Verif.Props.Exit
import Verif.Props.LoadProcedure
import Verif.Props.SystemImport
import Verif.Props.SystemSets
import Verif.Props.Program
import Verif.Props.Shutdown
import Verif.Props.Display
import Verif.Props.ListWalk
import Verif.Props.Compare
import Verif.Props.Toplevel
import Verif.Props.SystemReport
import Verif.Props.Constants
import Verif.Props.Single
import Verif.Props.SingleText
import Verif.Props.Circular
import Verif.Props.Elementary
import Verif.Props.ConstantsPower
import Verif.Props.InexactComplex
