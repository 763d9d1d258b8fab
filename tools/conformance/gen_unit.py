import sys; sys.path.insert(0,'/tmp/conf')
from html2tree import *
docs={'seven':"""<div><div><ul><li></li><li></li></ul></div><div><ul><li></li><li></li></ul></div></div><div><div><ul><li></li><li></li></ul></div><div><ul><li></li><li></li></ul></div></div><div><div><ul><li></li><li></li></ul></div><div><ul><li></li><li></li></ul><div><ul><li></li><li></li></ul></div></div></div>""",
'max':"<html><head></head><body><div><a></a></div><div><div><a></a></div></div></body></html>",
'text':"""
<html><head></head><body>

   This is  <span> a</span><span> b</span>adly
f<span>ormatte</span>d<div><div>html</div>doc<a>ume</a>nt<span></span>.
<div><span></span>

</div>
</body></html>
  ""","strip":"<div> like<div>a</div>rolling  stone</div>",
'g1':"<a></a><div></div><a></a>",'g3':"<a></a><div></div><a></a><div></div>",
'n5':"<div><i></i><span><span><span><b></b><a></a></span></span></span></div>",
'n6':"<b></b><div><span><span><span><b></b><a></a></span></span></span></div><b></b>",
'n8':"<div><p></p><span><span><span><i></i><b><span><a></a><b></b></span></b></span></span></span></div>",
'inner':"<html><head></head><body><div><div> --- text --- </div><div> --- stuff --- </div></div></body></html>"}
for k,v in docs.items():
    b=B(); b.feed(v); b.close(); b.ensure_body(); out=[]; dump(b.html,0,out); open('/tmp/conf/u/%s.tree'%k,'w').write('\n'.join(out)+'\n')
