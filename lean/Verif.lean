import Verif.Basic
import Verif.Label.Props
import Verif.Num.Props
import Verif.Num.PropsReal
import Verif.Bits.Props
import Verif.Enc.Props
import Verif.Str.Props
import Verif.Esc.Props
import Verif.Esc.PropsB
import Verif.Stream.Props
import Verif.Stream.PropsB
import Verif.Sort.Props
import Verif.Arr.Props
import Verif.Pool.Props
import Verif.Path.Props
import Verif.Path.PropsB
import Verif.Spooky.Props
import Verif.Date.Props
import Verif.FLoc.Props
import Verif.Liquid.Props
import Verif.TConv.Props
import Verif.Pylon.Props
import Verif.Pylon.PropsObj
import Verif.Pylon.PropsWord
import Verif.Cook.Props
import Verif.Conc.PropsSpin
import Verif.Conc.PropsLazy
import Verif.Conc.PropsEvent
import Verif.Conc.PropsMemLog
import Verif.Conc.PropsMisc
import Verif.Build.Props
import Verif.Build.PropsOnce
import Verif.Fs.Props
import Verif.Fs.PropsWalk
import Verif.Schema.Props
import Verif.Web.PropsHead
import Verif.Web.PropsFile
import Verif.BTree.Props
import Verif.HMap.Props
import Verif.Persist.Props
import Verif.Persist.PropsEvolve
import Verif.Markdown.PropsHtml
import Verif.Markdown.PropsInline
import Verif.Markdown.PropsBlock
import Verif.Crowbar.PropsExpr
import Verif.Crowbar.PropsFile
import Verif.Crowbar.PropsTok
import Verif.Crowbar.PropsWhole
import Verif.Crowbar.PropsEnds
import Verif.Crowbar.PropsRecover
import Verif.Crowbar.PropsStore
import Verif.Crowbar.PropsInterp
import Verif.Markdown.PropsList
import Verif.PyRef.Props
import Verif.Ref.Props
import Verif.Ref.PropsAtomic
import Verif.TFmt.Props
import Verif.TFmt.PropsLoad
import Verif.TFmt.PropsBytes
import Verif.Cpp.Props
import Verif.Cpp.PropsB
import Verif.Seq.Props
import Verif.CppParse.Props
import Verif.CppParse.PropsTree
import Verif.Image.Props
import Verif.Image.PropsMore
import Verif.Geom.Props
import Verif.Xform.Props
import Verif.Xform.PropsB
import Verif.Xform.PropsC
import Verif.Xform.PropsD
import Verif.Rand.Props
import Verif.Proc.Props
import Verif.Audio.Props
import Verif.Inst.Props
import Verif.Names.Props
import Verif.Docs.Props
import Verif.Own.Props
import Verif.Rm.Props
import Verif.Clean.Props
import Verif.Cmd.Props
import Verif.Conv.Props
import Verif.Title.Props
import Verif.Cpu.Props
import Verif.DocEx.Props
import Verif.DocLink.Props
import Verif.DocText.Props
import Verif.Toc.Props
import Verif.Gen.Props
import Verif.Reg.Props
import Verif.Sig.Props
