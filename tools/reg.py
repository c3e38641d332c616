"""helper: reg(pid, prop-line, claim-line, design-row)"""
def add(prop=None, claim=None, row=None, finding=None, cov=None):
    if prop:
        p='/verif/tools/props.py'; s=open(p).read()
        k="open('/verif/properties.jsonl'"
        s=s.replace(k, prop+"\n"+k,1); open(p,'w').write(s)
    if claim:
        p='/verif/tools/manifest.py'; s=open(p).read()
        s=s.replace("#--MORE--", claim+"\n#--MORE--",1); open(p,'w').write(s)
    p='/verif/DESIGN.md'; s=open(p).read()
    if row:
        k="Every property above can be expressed"
        i=s.index(k); j=s[:i].rstrip()
        s=j+"\n"+row+"\n\n"+s[i:]
    if finding:
        i=s.index("\n## Coverage"); s=s[:i].rstrip()+"\n"+finding+"\n"+s[i:]
    if cov:
        k="| interfaces/c/x_ocp_qp_solver.c"
        i=s.index(k); s=s[:i]+cov+"\n"+s[i:]
    open(p,'w').write(s)
