import Verif.Props.Split
import Verif.Props.FromString
import Verif.Props.History
import Verif.Props.Storage
import Verif.Props.CommonPrefix
import Verif.Props.Terminal
import Verif.Props.Dispatch
import Verif.Props.Menus
import Verif.Props.Bang
import Verif.Props.Life
import Verif.Props.Completion
import Verif.Props.Processor
import Verif.Props.Keyboard
import Verif.Props.Telnet
import Verif.Props.TelnetKeys
import Verif.Props.TelnetOptions
import Verif.Props.Loop
import Verif.Props.FileSession
import Verif.Props.OutStream
import Verif.Props.Sessions
import Verif.Props.AsyncSession
import Verif.Props.AfterExit
import Verif.Props.LocalSession
import Verif.Model.Net
import Verif.Props.Net
import Verif.Model.WinKeyboard
import Verif.Spec.WinKeys
import Verif.Props.WinKeyboard
import Verif.Model.StorageIO
import Verif.Props.StorageIO
import Verif.Model.AsioScheduler
import Verif.Proofs.AsioScheduler
import Verif.Proofs.TreePath
import Verif.Props.AsioScheduler
import Verif.Model.Program
import Verif.Props.Program
import Verif.Props.Observed
import Verif.Props.Replay
import Verif.Props.MenuChanges
import Verif.Props.ArrowKeys
import Verif.Spec.Utf8
import Verif.Props.Utf8
import Verif.Spec.Wide
import Verif.Props.Wide
import Verif.Props.LineEnds
import Verif.Model.Writes
import Verif.Props.Writes
import Verif.Spec.Space
import Verif.Proofs.Space
import Verif.Props.NetKeys
import Verif.Proofs.Hue
import Verif.Spec.Colour
import Verif.Props.Colour
import Verif.Model.Descriptors
import Verif.Props.Descriptors
import Verif.Model.TelnetServer
import Verif.Props.AlikeKeys
import Verif.Props.TelnetServer
import Verif.Model.Creation
import Verif.Props.Creation
import Verif.Props.Saved
import Verif.Model.Complete
import Verif.Props.Complete
import Verif.Model.Keyboards
import Verif.Props.Keyboards
import Verif.Props.CompleteShared
import Verif.Model.Format
import Verif.Props.Format
import Verif.Model.Move
import Verif.Props.Move
import Verif.Validation.Units
import Verif.Validation.Session
import Verif.Validation.Schedulers
import Verif.Props.Removal
import Verif.Model.Flush
import Verif.Props.Flush
import Verif.Model.Plugins
import Verif.Spec.Plugins
import Verif.Proofs.Plugins
import Verif.Props.Plugins
import Verif.Model.Reentrant
import Verif.Spec.Reentrant
import Verif.Proofs.Reentrant
import Verif.Props.Reentrant
import Verif.Props.PluginsText
import Verif.Props.Tight
import Verif.Props.Corners
import Verif.Model.Script
import Verif.Spec.Script
import Verif.Proofs.Script
import Verif.Proofs.ScriptLoop
import Verif.Props.Script
import Verif.Props.LoopStart
import Verif.Model.Signature
import Verif.Spec.Signature
import Verif.Props.Signature
import Verif.Model.TextMode
import Verif.Props.TextMode
import Verif.Model.AsyncProgram
import Verif.Props.AsyncProgram
import Verif.Model.Custom
import Verif.Spec.Custom
import Verif.Props.Custom
import Verif.Model.Showcase
import Verif.Spec.Showcase
import Verif.Proofs.Showcase
import Verif.Props.Showcase
import Verif.Props.BangExact
import Verif.Props.Nameless
import Verif.Props.PostEnds
import Verif.Props.Exact
import Verif.Props.Hooks
import Verif.Props.Overlap
import Verif.Props.Lexical
import Verif.Spec.Screenplay
import Verif.Props.Screenplay
import Verif.Props.SameOverTelnet
import Verif.Props.ScreenplayTelnet
import Verif.Props.Survives
import Verif.Model.Rang
import Verif.Spec.Console
import Verif.Props.Rang
import Verif.Spec.Frontend
import Verif.Proofs.Frontend
import Verif.Props.SameFromFile
import Verif.Spec.Drafts
import Verif.Proofs.Drafts
import Verif.Proofs.Answers
import Verif.Proofs.DraftKeys
import Verif.Proofs.DraftSteps
import Verif.Props.Drafts
import Verif.Props.DraftsTelnet
import Verif.Props.Hosted
import Verif.Props.Statics
import Verif.Props.Panel
import Verif.Props.WinProgram
import Verif.Props.WinScreen
import Verif.Spec.Company
import Verif.Props.Company
import Verif.Spec.Ensemble
import Verif.Props.Ensemble
import Verif.Props.Diary
import Verif.Props.Kiosk
import Verif.Props.Workbench
import Verif.Props.Sheets
import Verif.Props.ColourFile
import Verif.Props.ColourNet
import Verif.Props.ColourServer
import Verif.Props.Shared
import Verif.Props.Slips
import Verif.Props.Stumble
import Verif.Props.Regardless
import Verif.Props.Deaf
import Verif.Props.MetEnd
import Verif.Props.Sizes
