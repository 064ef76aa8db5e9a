/-
The names of pseudo-classes, pseudo-elements and elements that the selector parser knows: the keys of the maps in
css_ast/src/selector. (Copied from the sources by a script; the comments tell from where.)
-/
import Verif.Model.Features

namespace Hdx

/-- css_ast/src/selector/pseudo_class.rs:11-62. -/
def PSEUDO_CLASSES : List (List Char) := [c!"active", c!"any-link", c!"autofill", c!"blank", c!"checked", c!"current", c!"default",
  c!"defined", c!"disabled", c!"empty", c!"enabled", c!"first", c!"first-child", c!"first-of-type", c!"fullscreen", c!"future", c!"focus",
  c!"focus-visible", c!"focus-within", c!"host", c!"hover", c!"indeterminate", c!"in-range", c!"invalid", c!"last-child", c!"last-of-type",
  c!"left", c!"link", c!"local-link", c!"modal", c!"only-child", c!"only-of-type", c!"optional", c!"out-of-range", c!"past",
  c!"picture-in-picture", c!"placeholder-shown", c!"popover-open", c!"paused", c!"playing", c!"read-only", c!"read-write", c!"required",
  c!"right", c!"root", c!"scope", c!"target", c!"target-within", c!"valid", c!"visited"]

/-- css_ast/src/selector/webkit.rs:212-225. -/
def WEBKIT_PSEUDO_CLASSES : List (List Char) := [c!"-webkit-animating-full-screen-transition", c!"-webkit-any-link", c!"-webkit-autofill",
  c!"-webkit-autofill-and-obscured", c!"-webkit-autofill-strong-password", c!"-webkit-autofill-strong-password-viewable", c!"-webkit-drag",
  c!"-webkit-full-page-media", c!"-webkit-full-screen", c!"-webkit-full-screen-ancestor", c!"-webkit-full-screen-controls-hidden",
  c!"-webkit-full-screen-document"]

/-- css_ast/src/selector/moz.rs:164-192. -/
def MOZ_PSEUDO_CLASSES : List (List Char) := [c!"-moz-any", c!"-moz-any-link", c!"-moz-broken", c!"-moz-drag-over", c!"-moz-first-node",
  c!"-moz-focusring", c!"-moz-full-screen", c!"-moz-full-screen-ancestor", c!"-moz-handler-blocked", c!"-moz-handler-crashed",
  c!"-moz-handler-disabled", c!"-moz-last-node", c!"-moz-loading", c!"-moz-lwtheme", c!"-moz-lwtheme-brighttext",
  c!"-moz-lwtheme-darktext", c!"-moz-native-anonymous", c!"-moz-only-whitespace", c!"-moz-placeholder-shown", c!"-moz-read-only",
  c!"-moz-read-write", c!"-moz-submit-invalid", c!"-moz-suppressed", c!"-moz-ui-invalid", c!"-moz-ui-valid", c!"-moz-user-disabled",
  c!"-moz-window-inactive"]

/-- css_ast/src/selector/ms.rs:35-35. -/
def MS_PSEUDO_CLASSES : List (List Char) := [c!"-ms-fullscreen", c!"-ms-input-placeholder"]

/-- css_ast/src/selector/o.rs:25-25. -/
def O_PSEUDO_CLASSES : List (List Char) := [c!"-o-prefocus"]

/-- css_ast/src/selector/pseudo_element.rs:13-29. -/
def PSEUDO_ELEMENTS : List (List Char) := [c!"after", c!"backdrop", c!"before", c!"cue", c!"cue-region", c!"first-letter", c!"first-line",
  c!"file-selector-button", c!"grammar-error", c!"marker", c!"placeholder", c!"selection", c!"spelling-error", c!"target-text",
  c!"view-transition"]

/-- css_ast/src/selector/pseudo_element.rs:128-133. -/
def LEGACY_PSEUDO_ELEMENTS : List (List Char) := [c!"after", c!"before", c!"first-letter", c!"first-line"]

/-- css_ast/src/selector/webkit.rs:14-78. -/
def WEBKIT_PSEUDO_ELEMENTS : List (List Char) := [c!"-webkit-calendar-picker-indicator", c!"-webkit-caps-lock-indicator",
  c!"-webkit-color-swatch", c!"-webkit-color-swatch-wrapper", c!"-webkit-contacts-auto-fill-button",
  c!"-webkit-credentials-auto-fill-button", c!"-webkit-credit-card-auto-fill-button", c!"-webkit-date-and-time-value",
  c!"-webkit-datetime-edit", c!"-webkit-datetime-edit-day-field", c!"-webkit-datetime-edit-fields-wrapper",
  c!"-webkit-datetime-edit-hour-field", c!"-webkit-datetime-edit-meridiem-field", c!"-webkit-datetime-edit-millisecond-field",
  c!"-webkit-datetime-edit-minute", c!"-webkit-datetime-edit-minute-field", c!"-webkit-datetime-edit-month-field",
  c!"-webkit-datetime-edit-second-field", c!"-webkit-datetime-edit-text", c!"-webkit-datetime-edit-year-field", c!"-webkit-details-marker",
  c!"-webkit-file-upload-button", c!"-webkit-generic-cue-root", c!"-webkit-input-placeholder", c!"-webkit-inner-spin-button",
  c!"-webkit-list-button", c!"-webkit-media-text-track-container", c!"-webkit-media-text-track-display",
  c!"-webkit-media-text-track-display-backdrop", c!"-webkit-media-text-track-region", c!"-webkit-media-text-track-region-container",
  c!"-webkit-meter-bar", c!"-webkit-meter-even-less-good-value", c!"-webkit-meter-inner-element", c!"-webkit-meter-optimum-value",
  c!"-webkit-meter-suboptimum-value", c!"-webkit-outer-spin-button", c!"-webkit-progress-bar", c!"-webkit-progress-inner-element",
  c!"-webkit-progress-value", c!"-webkit-resizer", c!"-webkit-scrollbar", c!"-webkit-scrollbar-button", c!"-webkit-scrollbar-corner",
  c!"-webkit-scrollbar-thumb", c!"-webkit-scrollbar-track", c!"-webkit-scrollbar-track-piece", c!"-webkit-search-cancel-button",
  c!"-webkit-search-decoration", c!"-webkit-search-results-button", c!"-webkit-slider-container", c!"-webkit-slider-runnable-track",
  c!"-webkit-slider-thumb", c!"-webkit-password-auto-fill-button", c!"-webkit-textfield-decoration-container",
  c!"-webkit-validation-bubble", c!"-webkit-validation-bubble-arrow", c!"-webkit-validation-bubble-arrow-clipper",
  c!"-webkit-validation-bubble-body", c!"-webkit-validation-bubble-heading", c!"-webkit-validation-bubble-icon",
  c!"-webkit-validation-bubble-message", c!"-webkit-validation-bubble-text-block"]

/-- css_ast/src/selector/moz.rs:15-90. -/
def MOZ_PSEUDO_ELEMENTS : List (List Char) := [c!"-moz-anonymous-block", c!"-moz-anonymous-item", c!"-moz-anonymous-positioned-block",
  c!"-moz-block-inside-inline-wrapper", c!"-moz-block-ruby-content", c!"-moz-button-content", c!"-moz-canvas", c!"-moz-cell-content",
  c!"-moz-color-swatch", c!"-moz-column-content", c!"-moz-column-set", c!"-moz-column-span-wrapper", c!"-moz-dropdown-list",
  c!"-moz-fieldset-content", c!"-moz-first-letter-continuation", c!"-moz-focus-inner", c!"-moz-focus-outer", c!"-moz-frameset-blank",
  c!"-moz-hframeset-border", c!"-moz-html-canvas-content", c!"-moz-inline-table", c!"-moz-line-frame", c!"-moz-list-bullet",
  c!"-moz-list-number", c!"-moz-mathml-anonymous-block", c!"-moz-number-spin-box", c!"-moz-number-spin-down", c!"-moz-number-spin-up",
  c!"-moz-oof-placeholder", c!"-moz-page", c!"-moz-page-break", c!"-moz-page-content", c!"-moz-page-sequence", c!"-moz-pagebreak",
  c!"-moz-pagecontent", c!"-moz-placeholder", c!"-moz-printed-sheet", c!"-moz-progress-bar", c!"-moz-range-progress", c!"-moz-range-thumb",
  c!"-moz-range-track", c!"-moz-reveal", c!"-moz-ruby", c!"-moz-ruby-base", c!"-moz-ruby-base-container", c!"-moz-ruby-text",
  c!"-moz-ruby-text-container", c!"-moz-scrolled-canvas", c!"-moz-scrolled-content", c!"-moz-scrolled-page-sequence",
  c!"-moz-search-clear-button", c!"-moz-selection", c!"-moz-svg-foreign-content", c!"-moz-svg-marker-anon-child",
  c!"-moz-svg-marker-outer-svg-anon-child", c!"-moz-svg-text", c!"-moz-table", c!"-moz-table-cell", c!"-moz-table-column",
  c!"-moz-table-column-group", c!"-moz-table-outer", c!"-moz-table-row", c!"-moz-table-row-group", c!"-moz-table-wrapper",
  c!"-moz-text-control-editing-root", c!"-moz-text-control-preview", c!"-moz-tree-cell", c!"-moz-tree-checkbox",
  c!"-moz-tree-drop-feedback", c!"-moz-tree-indentation", c!"-moz-tree-separator", c!"-moz-vframeset-border", c!"-moz-viewport",
  c!"-moz-viewport-scroll"]

/-- css_ast/src/selector/ms.rs:7-26. -/
def MS_PSEUDO_ELEMENTS : List (List Char) := [c!"-ms-backdrop", c!"-ms-browse", c!"-ms-check", c!"-ms-clear", c!"-ms-expand", c!"-ms-fill",
  c!"-ms-fill-upper", c!"-ms-fill-lower", c!"-ms-input-placeholder", c!"-ms-placeholder", c!"-ms-reveal", c!"-ms-selection", c!"-ms-thumb",
  c!"-ms-ticks-after", c!"-ms-ticks-before", c!"-ms-tooltip", c!"-ms-track", c!"-ms-value"]

/-- css_ast/src/selector/o.rs:7-16. -/
def O_PSEUDO_ELEMENTS : List (List Char) := [c!"-o-inner-spin-button", c!"-o-outer-spin-button", c!"-o-placeholder", c!"-o-scrollbar",
  c!"-o-scrollbar-thumb", c!"-o-scrollbar-track", c!"-o-scrollbar-track-piece", c!"-o-selection"]

/-- css_ast/src/selector/functional_pseudo_class.rs:11-27. -/
def FUNCTIONAL_PSEUDO_CLASSES : List (List Char) := [c!"dir", c!"has", c!"host", c!"host-context", c!"is", c!"lang", c!"not",
  c!"nth-child", c!"nth-col", c!"nth-last-child", c!"nth-last-col", c!"nth-last-of-type", c!"nth-of-type", c!"state", c!"where"]

/-- css_ast/src/selector/tag.rs:169-300. -/
def HTML_TAGS : List (List Char) := [c!"a", c!"abbr", c!"address", c!"area", c!"article", c!"aside", c!"audio", c!"b", c!"base", c!"bdi",
  c!"bdo", c!"big", c!"blockquote", c!"body", c!"br", c!"button", c!"canvas", c!"caption", c!"center", c!"cite", c!"code", c!"col",
  c!"colgroup", c!"data", c!"datalist", c!"dd", c!"del", c!"details", c!"dfn", c!"dialog", c!"dir", c!"div", c!"dl", c!"dt", c!"em",
  c!"embed", c!"fieldset", c!"figcaption", c!"figure", c!"font", c!"footer", c!"form", c!"frame", c!"frameset", c!"h1", c!"h2", c!"h3",
  c!"h4", c!"h5", c!"h6", c!"head", c!"header", c!"hgroup", c!"hr", c!"html", c!"i", c!"iframe", c!"img", c!"input", c!"ins", c!"kbd",
  c!"label", c!"legend", c!"li", c!"link", c!"main", c!"map", c!"mark", c!"marquee", c!"menu", c!"menuitem", c!"meta", c!"meter", c!"nav",
  c!"nobr", c!"noembed", c!"noframes", c!"noscript", c!"object", c!"ol", c!"optgroup", c!"option", c!"output", c!"p", c!"param",
  c!"picture", c!"plaintext", c!"pre", c!"progress", c!"q", c!"rb", c!"rp", c!"rt", c!"rtc", c!"ruby", c!"s", c!"samp", c!"script",
  c!"search", c!"section", c!"select", c!"slot", c!"small", c!"source", c!"span", c!"strike", c!"strong", c!"style", c!"sub", c!"summary",
  c!"sup", c!"table", c!"tbody", c!"td", c!"template", c!"textarea", c!"tfoot", c!"th", c!"thead", c!"time", c!"title", c!"tr", c!"track",
  c!"tt", c!"u", c!"ul", c!"var", c!"video", c!"wbr", c!"xmp"]

/-- css_ast/src/selector/tag.rs:310-340. -/
def HTML_NON_CONFORMING_TAGS : List (List Char) := [c!"acronym", c!"applet", c!"basefont", c!"bgsound", c!"big", c!"blink", c!"center",
  c!"dir", c!"font", c!"frame", c!"frameset", c!"isindex", c!"keygen", c!"listing", c!"marquee", c!"menuitem", c!"multicol", c!"nextid",
  c!"nobr", c!"noembed", c!"noframes", c!"param", c!"plaintext", c!"rb", c!"rtc", c!"spacer", c!"strike", c!"tt", c!"xmp"]

/-- css_ast/src/selector/tag.rs:349-358. -/
def HTML_NON_STANDARD_TAGS : List (List Char) := [c!"fencedframe", c!"portal", c!"permission", c!"selectedcontent"]

/-- css_ast/src/selector/tag.rs:368-433. -/
def SVG_TAGS : List (List Char) := [c!"a", c!"animate", c!"animatemotion", c!"animatetransform", c!"circle", c!"clippath", c!"defs",
  c!"desc", c!"discard", c!"ellipse", c!"feblend", c!"fecolormatrix", c!"fecomponenttransfer", c!"fecomposite", c!"feconvolvematrix",
  c!"fediffuselighting", c!"fedisplacementmap", c!"fedistantlight", c!"fedropshadow", c!"feflood", c!"fefunca", c!"fefuncb", c!"fefuncg",
  c!"fefuncr", c!"fegaussianblur", c!"feimage", c!"femerge", c!"femergenode", c!"femorphology", c!"feoffset", c!"fepointlight",
  c!"fespecularlighting", c!"fespotlight", c!"fetile", c!"feturbulence", c!"filter", c!"foreignobject", c!"g", c!"image", c!"line",
  c!"lineargradient", c!"marker", c!"mask", c!"metadata", c!"mpath", c!"path", c!"pattern", c!"polygon", c!"polyline", c!"radialgradient",
  c!"rect", c!"script", c!"set", c!"stop", c!"style", c!"svg", c!"switch", c!"symbol", c!"text", c!"textpath", c!"title", c!"tspan",
  c!"use", c!"view"]

/-- css_ast/src/selector/tag.rs:443-602. -/
def MATHML_TAGS : List (List Char) := [c!"abs", c!"and", c!"annotation", c!"annotation-xml", c!"apply", c!"approx", c!"arg", c!"bind",
  c!"bvar", c!"card", c!"cartesianproduct", c!"cbytes", c!"ceiling", c!"cerror", c!"ci", c!"cn", c!"codomain", c!"compose", c!"condition",
  c!"conjugate", c!"cs", c!"csymbol", c!"curl", c!"declare", c!"degree", c!"determinant", c!"diff", c!"divergence", c!"divide", c!"domain",
  c!"domainofapplication", c!"emptyset", c!"eq", c!"equivalent", c!"exists", c!"exp", c!"factorial", c!"factorof", c!"floor", c!"fn",
  c!"forall", c!"gcd", c!"geq", c!"grad", c!"gt", c!"ident", c!"image", c!"imaginary", c!"img", c!"implies", c!"in", c!"int",
  c!"intersect", c!"interval", c!"inverse", c!"lambda", c!"laplacian", c!"lcm", c!"leq", c!"limit", c!"list", c!"ln", c!"log", c!"logbase",
  c!"lowlimit", c!"lt", c!"maction", c!"maligngroup", c!"malignmark", c!"math", c!"matrix", c!"matrixrow", c!"max", c!"mean", c!"median",
  c!"menclose", c!"merror", c!"mfenced", c!"mfrac", c!"mfraction", c!"mglyph", c!"mi", c!"min", c!"minus", c!"mlabeledtr", c!"mlongdiv",
  c!"mmultiscripts", c!"mn", c!"mo", c!"mode", c!"moment", c!"momentabout", c!"mover", c!"mpadded", c!"mphantom", c!"mprescripts",
  c!"mroot", c!"mrow", c!"ms", c!"mscarries", c!"mscarry", c!"msgroup", c!"msline", c!"mspace", c!"msqrt", c!"msrow", c!"mstack",
  c!"mstyle", c!"msub", c!"msubsup", c!"msup", c!"mtable", c!"mtd", c!"mtext", c!"mtr", c!"munder", c!"munderover", c!"neq", c!"none",
  c!"not", c!"notin", c!"notprsubset", c!"notsubset", c!"or", c!"otherwise", c!"outerproduct", c!"partialdiff", c!"piece", c!"piecewise",
  c!"plus", c!"power", c!"product", c!"prsubset", c!"quotient", c!"real", c!"reln", c!"rem", c!"root", c!"scalarproduct", c!"sdev",
  c!"selector", c!"semantics", c!"sep", c!"set", c!"setdiff", c!"share", c!"sin", c!"subset", c!"sum", c!"tendsto", c!"times",
  c!"transpose", c!"union", c!"uplimit", c!"variance", c!"vector", c!"vectorproduct", c!"xo"]

end Hdx
