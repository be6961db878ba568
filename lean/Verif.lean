import Verif.Props.Runs
import Verif.Props.Handles
import Verif.Props.Formatting
import Verif.Props.Layout
import Verif.Props.Cursor
import Verif.Props.Offsets
import Verif.Props.HitTest
import Verif.Props.Draw
import Verif.Props.LineBreak
import Verif.Props.VisualRuns
import Verif.Props.ScriptRun
import Verif.Props.FontData
import Verif.Props.CursorController
import Verif.Props.TextBoxNav
import Verif.Props.TextAtlas
import Verif.Props.Color
import Verif.Props.UIObject
import Verif.Props.UIContainer
import Verif.Props.Built
import Verif.Props.Pen
import Verif.Props.SmallCaps
import Verif.Props.Bitmap
import Verif.Props.Markup
import Verif.Props.Characters
import Verif.Props.HarfbuzzFont
import Verif.Props.Synthetic
import Verif.Props.FamilyJson
import Verif.Props.MsdfAtlas
import Verif.Props.App
import Verif.Model.TextRuns
import Verif.Spec.TextRuns
import Verif.Proof.TextRuns
import Verif.Props.TextRuns
import Verif.Model.FileMapping
import Verif.Spec.FileMapping
import Verif.Proof.FileMapping
import Verif.Props.FileMapping
import Verif.Model.Rounding
import Verif.Proof.Rounding
import Verif.Model.RoundedLayout
import Verif.Proof.RoundedLayout
import Verif.Proof.RoundedOffset
import Verif.Props.RoundedLayout
import Verif.Proof.RoundedQueries
import Verif.Props.RoundedQueries
import Verif.Proof.RoundedHitTest
import Verif.Props.RoundedHitTest
import Verif.Model.ToolBar
import Verif.Proof.ToolBar
import Verif.Props.ToolBar
import Verif.Props.Window
import Verif.Model.DrawSelection
import Verif.Props.DrawSelection
import Verif.Props.RoundTrip
import Verif.Model.HbLifetime
import Verif.Props.HbLifetime
import Verif.Model.HbCallbacks
import Verif.Props.HbCallbacks
import Verif.Model.RefBuilder
import Verif.Spec.RefBuilder
import Verif.Proof.RefBuilder
import Verif.Proof.RefPieces
import Verif.Props.RefBuilder
import Verif.Model.Lifetimes
import Verif.Props.Lifetimes
import Verif.Model.Overflow
import Verif.Spec.Overflow
import Verif.Proof.Overflow
import Verif.Props.Overflow
import Verif.Model.Strokes
import Verif.Spec.Strokes
import Verif.Proof.Strokes
import Verif.Props.Strokes
import Verif.Model.FaceMetrics
import Verif.Spec.FaceMetrics
import Verif.Proof.FaceMetrics
import Verif.Props.FaceMetrics
import Verif.Model.GLDraw
import Verif.Spec.GLDraw
import Verif.Proof.GLDraw
import Verif.Props.GLDraw
import Verif.Model.Shader
import Verif.Proof.Shader
import Verif.Props.Shader
import Verif.Model.GLObjects
import Verif.Proof.GLObjects
import Verif.Props.GLObjects
import Verif.Model.SampleWindow
import Verif.Props.SampleWindow
import Verif.Props.Caret
import Verif.Model.UtfConversion
import Verif.Spec.Utf16
import Verif.Proof.UtfConversion
import Verif.Props.UtfConversion
import Verif.Model.FileRead
import Verif.Props.FileRead
import Verif.Spec.Drawn
import Verif.Proof.Drawn
import Verif.Props.Drawn
import Verif.Model.ShapeRequest
import Verif.Props.ShapeRequest
import Verif.Model.Concurrent
import Verif.Spec.Concurrent
import Verif.Props.Concurrent
import Verif.Model.ParagraphFonts
import Verif.Spec.ParagraphFonts
import Verif.Props.ParagraphFonts
import Verif.Model.RefRuns
import Verif.Spec.RefRuns
import Verif.Props.RefRuns
import Verif.Model.BuildText
import Verif.Spec.BuildText
import Verif.Proof.BuildText
import Verif.Proof.Blanks
import Verif.Proof.BuildTextRun
import Verif.Proof.BuildTextAll
import Verif.Props.BuildText
import Verif.Proof.PlanCalls
import Verif.Props.ServesFonts
import Verif.Model.BoxThread
import Verif.Spec.BoxThread
import Verif.Proof.BoxThread
import Verif.Proof.BoxGuard
import Verif.Proof.BoxThreadRun
import Verif.Props.BoxThread
import Verif.Model.EachGlyph
import Verif.Props.EachGlyph
import Verif.Model.IcuBuilder
import Verif.Spec.IcuBuilder
import Verif.Proof.IcuBuilder
import Verif.Props.IcuBuilder
import Verif.Model.HbExtents
import Verif.Props.HbExtents
import Verif.Model.DebugDraw
import Verif.Props.DebugDraw
import Verif.Model.DrawBar
import Verif.Props.DrawBar
import Verif.Props.Greedy
import Verif.Props.LxBuilder
import Verif.Props.Widen
import Verif.Props.WidenHeight
import Verif.Props.Walk
import Verif.Props.Edit
import Verif.Props.TakeBack
import Verif.Props.LineSteps
import Verif.Props.Writable
import Verif.Props.MarkupEdit
import Verif.Props.RichTyping
import Verif.Props.Rendered
import Verif.Props.Highlight
import Verif.Props.KeysToGlyphs
import Verif.Props.DragType
import Verif.Props.RichCut
import Verif.Props.Move
import Verif.Props.PasteTyped
import Verif.Props.DoubleClick
import Verif.Props.PutBack
import Verif.Props.Words
import Verif.Props.ReplaceWord
import Verif.Props.FontTables
import Verif.Props.LxFonts
import Verif.Model.Clicks
import Verif.Props.ClickCycle
import Verif.Props.ClickMove
import Verif.Props.ClickType
import Verif.Props.ShiftClick
import Verif.Props.SelectAllType
import Verif.Props.SingleLine
import Verif.Props.Clipboard
import Verif.Props.ShiftKeys
import Verif.Props.Resume
import Verif.Props.TextEnds
import Verif.Props.LineKeys
import Verif.Props.Steps
