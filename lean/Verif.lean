import Verif.VM.Props
import Verif.Devices.SystemProps
import Verif.Devices.InputProps
import Verif.Devices.GuiAudio
import Verif.Devices.FileExamples
import Verif.Devices.ScreenRender
import Verif.Misc.Metadata
import Verif.Dbg.Stepping
import Verif.Dbg.WireModel
import Verif.Dbg.SymtabProps
import Verif.Dbg.Transport
import Verif.Dbg.Attach
import Verif.Asm.Mnemonics
import Verif.Asm.Rom
import Verif.Asm.Jumps
import Verif.Asm.LineEndings
import Verif.Asm.Includes
import Verif.Asm.Places
import Verif.Asm.SymFile
import Verif.Asm.Ctags
import Verif.Asm.Quote
import Verif.Asm.Main
import Verif.Asm.Opened
import Verif.Asm.Whole
import Verif.Asm.Hamt
import Verif.Asm.Lambdas
import Verif.Asm.DbgSyms
import Verif.Misc.Bembd
import Verif.Misc.Boot
import Verif.Asm.Annotation
import Verif.Chess.C45Cases
import Verif.Chess.Call
import Verif.Chess.C47Cases
import Verif.Chess.Depth
import Verif.Chess.Entry
import Verif.Chess.Trail
import Verif.Chess.Effect
import Verif.Chess.C46Cases
import Verif.Chess.C55
import Verif.Chess.C84Addresses
import Verif.Chess.C84Cases
import Verif.Chess.Notation
import Verif.Devices.Datetime
import Verif.VM.Safe
import Verif.Misc.Cli
import Verif.VM.Memory
import Verif.VM.Unread
import Verif.Devices.FileUnread
import Verif.Misc.Unread
import Verif.Gui.Unread
import Verif.Devices.FileMemory
import Verif.Misc.Memory
import Verif.Gui.Events
import Verif.Gui.Keyboard
import Verif.Gui.MouseWheel
import Verif.Gui.Pointer
import Verif.Gui.Touch
import Verif.Gui.Frame
import Verif.Gui.Console
import Verif.Gui.Title
import Verif.Gui.Start
import Verif.Gui.Platforms
import Verif.Tools.Bindgen
import Verif.Tools.Repl
import Verif.Tools.ReplWhole
import Verif.Tools.ReplTold
import Verif.Tools.ReplStraight
import Verif.Tools.ReplReads
import Verif.Tools.ReplFrame
import Verif.Chess.Reads
import Verif.Chess.ReadsCases
import Verif.Chess.Straight
import Verif.Tools.Romviz
import Verif.Devices.FileCalls
import Verif.Misc.Physfs
import Verif.Misc.PhysfsCli
import Verif.Misc.PhysfsGui
import Verif.Devices.Saving
import Verif.Misc.PhysfsSaving
import Verif.VM.Guard
import Verif.Gui.Keeps
import Verif.Gui.Whole
import Verif.Gui.WholeSafe
import Verif.Gui.WholeProps
import Verif.Asm.Meaning
import Verif.Asm.MeaningUnique
import Verif.Asm.MeaningMemory
import Verif.Asm.MeaningSim
import Verif.Asm.MeaningRead
import Verif.Asm.MeaningWord
import Verif.Asm.MeaningRun
import Verif.Asm.MeaningProps
import Verif.Asm.Depth
import Verif.Asm.Accepts
import Verif.Asm.AcceptsGrow
import Verif.Asm.AcceptsEmit
import Verif.Asm.AcceptsRefs
import Verif.Asm.AcceptsWord
import Verif.Asm.AcceptsRead
import Verif.Asm.AcceptsRun
import Verif.Asm.AcceptsShort
import Verif.Asm.AcceptsProps
import Verif.Asm.AcceptsReasons
import Verif.Asm.Comments
import Verif.Asm.CommentsBodies
import Verif.Asm.Expansion
import Verif.Asm.Renaming
import Verif.Asm.Unused
import Verif.Asm.UnusedMacro
import Verif.Asm.OnlyOpened
import Verif.Cases
import Verif.Asm.Warnings
import Verif.Asm.WarningsLocal
import Verif.Asm.Chibihash
import Verif.Tools.Chain
import Verif.Chess.Devices
import Verif.Chess.C90
import Verif.Tools.ChainChecked
import Verif.Misc.Relocation
import Verif.Gui.SameStart
