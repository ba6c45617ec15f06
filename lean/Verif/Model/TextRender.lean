import Verif.Model.Tree
/-
Model of `src/render/text/{context,elements,mod}.rs` and of `Handle::get_link_label`,
`src/render/handle.rs:93-127`.
-/
namespace Ftml

/-- `Handle::get_link_label`, src/render/handle.rs:93-127 with `get_page_title` (39-44) inlined;
`none` = the panic of line 116. -/
def getLinkLabel (site : Str) (link : LinkLoc) (label : LinkLabel) : Option Str :=
  match label with
  | .text t => some t
  | .url (some t) => some t
  | .url none => match link with
    | .url u => some u
    | .page r => some r.page
  | .page => match link with
    | .url _ => none
    | .page r =>
      let (site, page) := r.fieldsOr site
      some (c!"TODO: actual title (" ++ site ++ c!" " ++ page ++ c!")")

/-- `TextContext`, src/render/text/context.rs:30-70.  Fields that no rendering code reads or changes
(`prefixes`, `list_depths`, the indices) are left out: `prefixes` stays empty. -/
structure TCtx where
  out : Str
  scopes : Scopes
  invisible : Nat

namespace TCtx
/-- `push_str`, src/render/text/context.rs:231-240 (`push`, 223-229, is the one-character case). -/
def pushStr (c : TCtx) (s : Str) : TCtx :=
  { c with out := c.out ++ if c.invisible > 0 then s.map fun _ => ' ' else s }
/-- `add_newline`, lines 242-248. -/
def addNewline (c : TCtx) : TCtx := { c with out := c.out ++ ['\n'] }
/-- `ends_with_newline`, lines 251-253. -/
def endsWithNewline (c : TCtx) : Bool := c.out.getLast? == some '\n'
/-- `str_write!`: `Write::write_str`, lines 268-270 (not affected by `invisible`). -/
def write (c : TCtx) (s : Str) : TCtx := { c with out := c.out ++ s }
/-- `if !ctx.ends_with_newline() { ctx.add_newline() }`. -/
def freshLine (c : TCtx) : TCtx := if c.endsWithNewline then c else c.addNewline
end TCtx

/-- `for _ in 0..n { ctx.add_newline() }`. -/
def addNewlines : Nat → TCtx → TCtx
  | 0, c => c
  | n+1, c => addNewlines n c.addNewline

/-- Containers surrounded by newlines, src/render/text/elements.rs:62-65. -/
def CType.textNewlines : CType → Bool
  | .div | .paragraph | .blockquote | .header _ => true
  | _ => false

/-- `render_element`, src/render/text/elements.rs:41-277; `none` = panic.  The structural kinds are
the bodies of the loops over rows, tabs, items. -/
def textElem (w : World) (site : Str) : Elem → TCtx → Option TCtx
  | .mk k kids, ctx =>
    match k with
    | .container c _ =>
      if c = .hidden then some ctx
      else
        let ctx := if c = .invisible then { ctx with invisible := ctx.invisible + 1 } else ctx
        let ctx := if c = .rubyText then ctx.pushStr ['('] else ctx
        let ctx := if c.textNewlines then ctx.addNewline else ctx
        (go kids ctx).map fun ctx =>
          let ctx := if c = .rubyText then ctx.pushStr [')'] else ctx
          let ctx := if c.textNewlines then ctx.addNewline else ctx
          if c = .invisible then { ctx with invisible := ctx.invisible - 1 } else ctx
    | .text s | .raw s | .email s => some (ctx.pushStr s)
    | .variable name =>
      match ctx.scopes.get name with
      | some v => some (ctx.pushStr v)
      | none => some (ctx.pushStr (c!"{$" ++ name ++ c!"}"))
    | .table _ => (go kids ctx.freshLine).map TCtx.addNewline
    | .row _ => (go kids ctx).map TCtx.addNewline
    | .cell .. => go kids ctx
    | .tabView => go kids ctx
    | .tab label => (go kids (ctx.pushStr label).addNewline).map TCtx.addNewline
    | .anchor .. => go kids ctx
    | .link _ loc _ label _ => (getLinkLabel site loc label).map ctx.pushStr
    | .list .. => go kids ctx.freshLine
    | .item _ => if kids.isEmpty then some ctx else (go kids ctx).map TCtx.addNewline
    | .subList => go kids ctx
    | .definitionList => (go kids ctx).map TCtx.addNewline
    | .defItem _ => (go kids ctx).map TCtx.addNewline
    | .defKey => (go kids ctx).map fun c => c.pushStr [' ']
    | .defValue => go kids ctx
    | .rubyText _ => go kids ctx
    | .collapsible .. => go kids ctx
    | .user name _ => some (ctx.pushStr name)
    | .date v _ _ => some (ctx.write ((w.formatDate v).getD c!"<ERROR>"))
    | .color _ => go kids ctx
    | .code contents _ => some (ctx.addNewline.pushStr contents).addNewline
    | .equationRef name => some (ctx.write (c!"[" ++ name ++ c!"]"))
    | .include _ vars _ =>
      (go kids { ctx with scopes := ctx.scopes.push vars }).bind fun c =>
        c.scopes.pop.map fun s => { c with scopes := s }
    | .lineBreak => some ctx.addNewline
    | .lineBreaks n => some (addNewlines n ctx)
    | .part _ => none
    | .module _ | .anchorName _ | .image .. | .radioButton .. | .checkBox .. | .toc .. | .footnote
    | .footnoteBlock .. | .bibCite .. | .bibBlock .. | .math .. | .mathInline _ | .embed _ | .html _
    | .iframe .. | .style _ | .clearFloat _ | .horizontalRule => some ctx
where
  /-- `render_elements`, src/render/text/elements.rs:33-39. -/
  go : List Elem → TCtx → Option TCtx
    | [], ctx => some ctx
    | e :: es, ctx => (textElem w site e ctx).bind (go es)

/-- `render_partial_direct`, src/render/text/mod.rs:54-97 (the two `while` loops remove leading and
trailing newlines). -/
def textRenderPartial (w : World) (info : PageInfo) (es : List Elem) : Option Str :=
  (textElem.go w info.site es ⟨[], ⟨[]⟩, 0⟩).map fun c =>
    ((c.out.dropWhile (· == '\n')).reverse.dropWhile (· == '\n')).reverse

/-- `TextRender::render`, src/render/text/mod.rs:104-129. -/
def textRender (w : World) (info : PageInfo) (t : Tree) : Option Str := textRenderPartial w info t.elements

end Ftml
