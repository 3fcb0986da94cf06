import Verif.Props.Address
import Verif.Props.Symbols
import Verif.Props.Resolve
import Verif.Props.Layout
import Verif.Props.ValueOrd
import Verif.Props.Memory
import Verif.Props.Enums
import Verif.Props.Maps
import Verif.Props.Corrupt
import Verif.Props.Index
import Verif.Props.Synthetic
import Verif.Props.Create
import Verif.Props.Expr
import Verif.Props.Server
import Verif.Props.Eval
import Verif.Props.Walker
import Verif.Props.Modules
import Verif.Props.FnIndex
import Verif.Props.Variables
import Verif.Props.Remap
import Verif.Props.Parser
import Verif.Props.TypeRes
import Verif.Props.UserTypes
import Verif.Props.Discovery
import Verif.Props.Methods
import Verif.Props.TypeNames
import Verif.Props.TypeLookup
import Verif.Props.SourceIndex
import Verif.Props.Wire
import Verif.Props.Grammar
import Verif.Props.Client
import Verif.Props.Front
import Verif.Props.Calls
import Verif.Props.CallArgs
import Verif.Props.Registers
import Verif.Props.Install
import Verif.Props.Shown
import Verif.Props.ShownPlaces
import Verif.Props.Remote
import Verif.Props.Cache
import Verif.Props.Sessions
import Verif.Props.Autostart
import Verif.Props.CallShown
import Verif.Props.Text
import Verif.Props.Listing
import Verif.Props.TypeText
import Verif.Props.Whole
import Verif.Props.Ask
import Verif.Props.Moved
import Verif.Props.Statics
import Verif.Proof.TypeTotal
import Verif.Props.OddNames
import Verif.Model.Report
import Verif.Props.Report
import Verif.Model.Declared
import Verif.Props.Declared
import Verif.Proof.Aliases
import Verif.Props.DeclaredShown
import Verif.Model.Entries
import Verif.Proof.Entries
import Verif.Props.Entries
import Verif.Model.Image
import Verif.Props.Image
import Verif.Props.ImageFunctions
import Verif.Props.ImagePlaces
import Verif.Props.ImageInside
import Verif.Props.ImageMethods
import Verif.Props.ImageCalls
import Verif.Props.ImageTexts
import Verif.Props.ImageParts
import Verif.Props.ImageReport
import Verif.Props.ImageMissing
import Verif.Props.ImageBuiltins
import Verif.Props.ImageIndexed
import Verif.Props.ImageRich
import Verif.Props.ImageAgrees
import Verif.Props.ImageMaybe
import Verif.Proof.Covers
import Verif.Props.Kept
import Verif.Props.KeptPrinted
import Verif.Props.ImagePartTexts
