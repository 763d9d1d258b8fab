import sys,re
from html.parser import HTMLParser
VOID=set('area base br col embed hr img input link meta param source track wbr keygen command frame basefont bgsound'.split())
HEAD=set('meta link script style title base noscript template'.split())
PCLOSE=set('address article aside blockquote center details dialog dir div dl fieldset figcaption figure footer header hgroup main menu nav ol p section summary ul h1 h2 h3 h4 h5 h6 pre listing form table hr xmp plaintext'.split())
class N:
    def __init__(s,kind,**k):
        s.kind=kind; s.kids=[]; s.__dict__.update(k)
def E(tag,orig=None,attrs=()): return N('E',tag=tag,orig=orig,attrs=list(attrs))
class B(HTMLParser):
    def __init__(s):
        super().__init__(convert_charrefs=True)
        s.html=E('html'); s.head=None; s.body=None; s.stack=[]; s.after=False
    # find original case
    def origname(s):
        t=s.get_starttag_text(); return re.match(r'<([^\s/>]+)',t).group(1)
    def ensure_head(s):
        if s.head is None: s.head=E('head'); s.html.kids.append(s.head)
    def ensure_body(s):
        s.ensure_head()
        if s.body is None:
            s.body=E('body'); s.html.kids.append(s.body); s.stack=[s.body]
    def cur(s): return s.stack[-1]
    def has(s,tag,stop=('table','html','td','th','caption','button','object','marquee','applet')):
        for n in reversed(s.stack):
            if n.tag==tag: return True
            if n.tag in stop: return False
        return False
    def popto(s,tag):
        while s.stack and len(s.stack)>1:
            n=s.stack.pop()
            if n.tag==tag: return
    def handle_starttag(s,tag,attrs,selfclose=False):
        attrs=[(k.lower(),v if v is not None else '') for k,v in attrs]
        o=s.origname()
        if tag=='html':
            s.html.orig=o; s.html.attrs+=attrs; return
        if tag=='head' and s.head is None:
            s.head=E('head',o,attrs); s.html.kids.append(s.head); s.stack=[s.head]; return
        if tag=='body':
            if s.body is None:
                s.ensure_head(); s.body=E('body',o,attrs); s.html.kids.append(s.body); s.stack=[s.body]
            return
        if s.body is None and tag in HEAD:
            s.ensure_head()
            if not s.stack or s.stack[0] is not s.head: s.stack=[s.head]
        else: s.ensure_body()
        if s.body is not None:
            if tag in PCLOSE and s.has('p'): s.popto('p')
            if tag=='li' :
                for n in reversed(s.stack):
                    if n.tag=='li': s.popto('li'); break
                    if n.tag in ('ul','ol'): break
            if tag in('tr',) :
                if s.has('tr',('table',)): s.popto('tr')
                if s.cur().tag=='table':
                    t=E('tbody'); s.cur().kids.append(t); s.stack.append(t)
            if tag in('td','th'):
                for c in('td','th'):
                    if s.has(c,('table','tr')): s.popto(c)
        n=E(tag,o,attrs); s.cur().kids.append(n)
        if tag not in VOID: s.stack.append(n)
    def handle_startendtag(s,tag,attrs): s.handle_starttag(tag,attrs)
    def handle_endtag(s,tag):
        if tag in('html','body'): return
        if tag=='head':
            s.stack=[]; return
        if any(n.tag==tag for n in s.stack): s.popto2(tag)
    def popto2(s,tag):
        while s.stack:
            n=s.stack.pop()
            if n.tag==tag: return
    def handle_data(s,d):
        d=d.replace('\r\n','\n').replace('\r','\n')
        if s.body is None and not (s.stack and s.stack[0] is s.head and len(s.stack)>1):
            if d.strip(' \t\n\f\r')=='':
                if s.stack and s.stack[0] is s.head: s.head.kids.append(N('W',text=d))
                elif s.head is not None: s.html.kids.append(N('W',text=d))
                return
            # leading whitespace ignored before body
            if s.head is None or True: d2=d.lstrip(' \t\n\f\r')
            s.ensure_body(); d=d2
        c=s.cur()
        if c.kids and c.kids[-1].kind in 'TW':
            c.kids[-1].text+=d
            if c.kids[-1].text.strip(' \t\n\f\r'): c.kids[-1].kind='T'
        else:
            c.kids.append(N('T' if d.strip(' \t\n\f\r') else 'W',text=d))
    def handle_comment(s,d):
        if s.stack: s.cur().kids.append(N('C',text=d))
def hx(t): return t.encode('utf8').hex() or '_'
def dump(n,d,out):
    if n.kind=='E':
        out.append(' '.join([str(d),'E',hx(n.tag),hx(n.orig) if n.orig else '-']+[hx(x) for a in n.attrs for x in a]))
        for k in n.kids: dump(k,d+1,out)
    else: out.append('%d %s %s'%(d,n.kind,hx(n.text)))
def conv(path):
    b=B(); b.feed(open(path,newline='').read()); b.close(); b.ensure_body()
    out=[]; dump(b.html,0,out); return '\n'.join(out)+'\n'
if __name__=='__main__': sys.stdout.write(conv(sys.argv[1]))
